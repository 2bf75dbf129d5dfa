import Verif.Lemmas.SplitLog
/-!
# The history of the drawing of the two windows of the diff view
-/
namespace Verif.Lemmas.Split
open Verif.Model Verif.Model.Diff Verif.Model.Split Verif.Spec.SplitView
open Verif.Model.Tui (getNbLines hasReachedBottom)

/-- The turn of an item: its line, and what was written. -/
structure Entry where
  it : Item
  y : Nat
  ls : List (Print × Nat)

/-- The windows while they are drawn, and what was drawn before. -/
inductive Logged (env : Env) (view : View) (v0 v1 : Win) : Pass → List Entry → List Entry → Prop where
  | start : Logged env view v0 v1 ⟨true, true, v0.reset, v1.reset⟩ [] []
  | add0 {b1 : Bool} {w0 w1 w : Win} {c : Bool} {l0 l1 : List Entry} {it : Item} {rest : List Item} {ls : List (Print × Nat)} :
      Logged env view v0 v1 ⟨true, b1, w0, w1⟩ l0 l1 → isAdded env false w0 = true →
      Wrote env view false w0 it rest w c ls →
      Logged env view v0 v1 ⟨!c, b1, w, gap (w.y - w0.y) w1⟩ (l0 ++ [⟨it, w0.y, ls⟩]) l1
  | add1 {b0 : Bool} {w0 w1 w : Win} {c : Bool} {l0 l1 : List Entry} {it : Item} {rest : List Item} {ls : List (Print × Nat)} :
      Logged env view v0 v1 ⟨b0, true, w0, w1⟩ l0 l1 → (b0 && isAdded env false w0) = false → isAdded env true w1 = true →
      Wrote env view true w1 it rest w c ls →
      Logged env view v0 v1 ⟨b0, !c, gap (w.y - w1.y) w0, w⟩ l0 (l1 ++ [⟨it, w1.y, ls⟩])
  | both {w0 w1 w w' : Win} {c c' : Bool} {l0 l1 : List Entry} {it it' : Item} {rest rest' : List Item} {ls ls' : List (Print × Nat)} :
      Logged env view v0 v1 ⟨true, true, w0, w1⟩ l0 l1 → isAdded env false w0 = false → isAdded env true w1 = false →
      Wrote env view false w0 it rest w c ls → Wrote env view true w1 it' rest' w' c' ls' →
      Logged env view v0 v1 ⟨!c, !c', { w with y := w0.y + max (w.y - w0.y) (w'.y - w1.y) }, { w' with y := w1.y + max (w.y - w0.y) (w'.y - w1.y) }⟩
        (l0 ++ [⟨it, w0.y, ls⟩]) (l1 ++ [⟨it', w1.y, ls'⟩])
  | only0 {w0 w1 w : Win} {c : Bool} {l0 l1 : List Entry} {it : Item} {rest : List Item} {ls : List (Print × Nat)} :
      Logged env view v0 v1 ⟨true, false, w0, w1⟩ l0 l1 → isAdded env false w0 = false →
      Wrote env view false w0 it rest w c ls →
      Logged env view v0 v1 ⟨!c, false, { w with y := w0.y + (w.y - w0.y) }, { w1 with y := w1.y + (w.y - w0.y) }⟩ (l0 ++ [⟨it, w0.y, ls⟩]) l1
  | only1 {w0 w1 w : Win} {c : Bool} {l0 l1 : List Entry} {it : Item} {rest : List Item} {ls : List (Print × Nat)} :
      Logged env view v0 v1 ⟨false, true, w0, w1⟩ l0 l1 → isAdded env true w1 = false →
      Wrote env view true w1 it rest w c ls →
      Logged env view v0 v1 ⟨false, !c, { w0 with y := w0.y + (w.y - w1.y) }, { w with y := w1.y + (w.y - w1.y) }⟩ l0 (l1 ++ [⟨it, w1.y, ls⟩])

theorem logged_of_steps {env : Env} {view : View} {v0 v1 : Win} {t : Pass} (h : Steps env view ⟨true, true, v0.reset, v1.reset⟩ t) :
    ∃ l0 l1, Logged env view v0 v1 t l0 l1 ∧ (t.b0 = true → Sound (env.root false) t.w0.stack ∧ Col t.w0) ∧
      (t.b1 = true → Sound (env.root true) t.w1.stack ∧ Col t.w1) := by
  have hg : ∀ n (w : Win), Col w → Col (gap n w) := by
    intro n w h
    rw [gap_eq]
    exact h
  have hn : ∀ {side : Bool} {w w' : Win} {c : Bool} {it : Item} {rest : List Item} {ls : List (Print × Nat)}, Wrote env view side w it rest w' c ls →
      (!c) = true → Sound (env.root side) w'.stack ∧ Col w' := by
    intro side w w' c it rest ls hw hc
    have := hw.next (by simpa using hc)
    exact ⟨this.1, this.2.1⟩
  generalize hs : (⟨true, true, v0.reset, v1.reset⟩ : Pass) = s at h
  induction h with
  | refl =>
    subst hs
    exact ⟨[], [], .start, fun _ => ⟨sound_nil _, rfl⟩, fun _ => ⟨sound_nil _, rfl⟩⟩
  | tail _ h ih =>
    obtain ⟨l0, l1, hl, s0, s1⟩ := ih
    cases h with
    | @add0 b1 w0 w1 w c ha ho =>
      obtain ⟨it, rest, ls, hw⟩ := wrote (s0 rfl).1 (s0 rfl).2 ho
      exact ⟨_, _, .add0 hl ha hw, hn hw, fun hb => ⟨by rw [stack_gap]; exact (s1 hb).1, hg _ _ (s1 hb).2⟩⟩
    | @add1 b0 w0 w1 w c hna ha ho =>
      obtain ⟨it, rest, ls, hw⟩ := wrote (s1 rfl).1 (s1 rfl).2 ho
      exact ⟨_, _, .add1 hl hna ha hw, fun hb => ⟨by rw [stack_gap]; exact (s0 hb).1, hg _ _ (s0 hb).2⟩, hn hw⟩
    | @both w0 w1 w w' c c' ha ha' ho ho' =>
      obtain ⟨it, rest, ls, hw⟩ := wrote (s0 rfl).1 (s0 rfl).2 ho
      obtain ⟨it', rest', ls', hw'⟩ := wrote (s1 rfl).1 (s1 rfl).2 ho'
      have h1 := hn hw
      have h2 := hn hw'
      exact ⟨_, _, .both hl ha ha' hw hw', h1, h2⟩
    | @only0 w0 w1 w c ha ho =>
      obtain ⟨it, rest, ls, hw⟩ := wrote (s0 rfl).1 (s0 rfl).2 ho
      have h1 := hn hw
      exact ⟨_, _, .only0 hl ha hw, h1, fun h => (by cases h)⟩
    | @only1 w0 w1 w c ha ho =>
      obtain ⟨it, rest, ls, hw⟩ := wrote (s1 rfl).1 (s1 rfl).2 ho
      have h1 := hn hw
      exact ⟨_, _, .only1 hl ha hw, fun h => (by cases h), h1⟩

/-- What holds of the windows one at a time. -/
theorem Logged.win {env : Env} {view : View} {v0 v1 : Win} {t : Pass} {l0 l1 : List Entry} (P : Bool → Bool → Win → List Entry → Prop)
    (h : Logged env view v0 v1 t l0 l1) (h0 : P false true v0.reset []) (h1 : P true true v1.reset [])
    (hsame : ∀ side b w l y m cs, w.y ≤ y → P side b w l → P side b { w with y := y, marks := m, calls := cs } l)
    (hone : ∀ side w w' c l it rest ls, Wrote env view side w it rest w' c ls → P side true w l → P side (!c) w' (l ++ [⟨it, w.y, ls⟩])) :
    P false t.b0 t.w0 l0 ∧ P true t.b1 t.w1 l1 := by
  have hgap : ∀ side b n w l, P side b w l → P side b (gap n w) l := by
    intro side b n w l hp
    rw [gap_eq]
    exact hsame side b w l _ _ _ (by omega) hp
  induction h with
  | start => exact ⟨h0, h1⟩
  | add0 _ _ hw ih => exact ⟨hone _ _ _ _ _ _ _ _ hw ih.1, hgap _ _ _ _ _ ih.2⟩
  | add1 _ _ _ hw ih => exact ⟨hgap _ _ _ _ _ ih.1, hone _ _ _ _ _ _ _ _ hw ih.2⟩
  | @both w0 w1 w w' _ _ _ _ _ _ _ _ _ _ _ _ _ hw hw' ih =>
    have := hw.y
    have := hw'.y
    exact ⟨hsame _ _ w _ _ _ _ (by omega) (hone _ _ _ _ _ _ _ _ hw ih.1), hsame _ _ w' _ _ _ _ (by omega) (hone _ _ _ _ _ _ _ _ hw' ih.2)⟩
  | @only0 w0 w1 w _ _ _ _ _ _ _ _ hw ih =>
    have := hw.y
    exact ⟨hsame _ _ w _ _ _ _ (by omega) (hone _ _ _ _ _ _ _ _ hw ih.1), hsame _ _ w1 _ _ _ _ (by omega) ih.2⟩
  | @only1 w0 w1 w _ _ _ _ _ _ _ _ hw ih =>
    have := hw.y
    exact ⟨hsame _ _ w0 _ _ _ _ (by omega) ih.1, hsame _ _ w _ _ _ _ (by omega) (hone _ _ _ _ _ _ _ _ hw ih.2)⟩

/-- The texts of an item, with its column. -/
def colPrints (env : Env) (view : View) (side : Bool) (it : Item) : List (Nat × Print) := (prints env view side it).map fun a => (it.col, a)

/-- The texts that were written, with their columns. -/
def Entry.texts (e : Entry) : List (Nat × Print) := e.ls.map fun b => (e.it.col, b.1)

/-- The window shows what the log says. -/
structure Shows (env : Env) (view : View) (v : Win) (side busy : Bool) (w : Win) (l : List Entry) : Prop where
  sel : w.sel = v.sel
  last : w.last = v.last
  results : w.results = v.results
  pos : 1 ≤ w.y
  items : ∃ more, itemsAll (cOf view side) (env.root side) = l.map (·.it) ++ more ∧
    (busy = true → more = remaining (env.root side) (cOf view side) w.x w.stack) ∧ (busy = false → more = [] ∨ w.found = true)
  screen : w.screen = l.flatMap fun e => e.ls.map (cellAt env view v.sel w.scroll e.it.col)
  lines : ∀ e ∈ l, ∀ b ∈ e.ls, e.y ≤ b.2 ∧ w.scroll < b.2 ∧ 1 ≤ b.1.lines ∧ b.2 + b.1.lines ≤ w.y
  before : ∀ e ∈ l, 1 ≤ e.y ∧ e.y < w.y
  order : (l.flatMap (·.ls)).Pairwise (fun a b => a.2 + a.1.lines ≤ b.2)
  apart : l.Pairwise (fun a b => a.y < b.y ∧ ∀ c ∈ a.ls, c.2 < b.y)
  prints : ∃ skipped left, (itemsAll (cOf view side) (env.root side)).flatMap (colPrints env view side) = skipped ++ l.flatMap (·.texts) ++ left ∧
    skipped.length ≤ w.scroll ∧ skipped.length < w.y ∧
    (busy = false → left = [] ∨ ∃ b, (l.flatMap (·.ls)).getLast? = some b ∧ hasReachedBottom (b.2 + b.1.lines) w.scroll view.height = true) ∧
    (busy = true → left = (remaining (env.root side) (cOf view side) w.x w.stack).flatMap (colPrints env view side))
  found : (w.found = true ↔ ∃ e ∈ l, isSel v.last side e.it = true)
  seen : ∀ e ∈ l, isSel v.last side e.it = true → w.scroll < e.y
  head : ∀ e ∈ l, w.scroll < e.y → ∃ a, (Split.prints env view side e.it).head? = some a ∧ e.ls.head? = some (a, e.y)

theorem shows_reset (env : Env) (view : View) (v : Win) (side : Bool) : Shows env view v side true v.reset [] := by
  refine ⟨rfl, rfl, rfl, Nat.le_refl _, ⟨_, rfl, fun _ => rfl, fun h => (by cases h)⟩, rfl, ?_, ?_, .nil, .nil, ⟨[], _, rfl, Nat.zero_le _, Nat.zero_lt_one, fun h => (by cases h), fun _ => rfl⟩, ?_, ?_, ?_⟩
  · intro e he; cases he
  · intro e he; cases he
  · constructor
    · intro h; cases h
    · rintro ⟨e, he, _⟩; cases he
  · intro e he; cases he
  · intro e he; cases he

theorem shows_same {env : Env} {view : View} {v : Win} {side b : Bool} {w : Win} {l : List Entry} {y : Nat} {m : List Mark} {cs : List Call} (hy : w.y ≤ y)
    (h : Shows env view v side b w l) : Shows env view v side b { w with y := y, marks := m, calls := cs } l := by
  refine ⟨h.sel, h.last, h.results, Nat.le_trans h.pos hy, h.items, h.screen, ?_, ?_, h.order, h.apart, ?_, h.found, h.seen, h.head⟩
  · intro e he b hb
    have := h.lines e he b hb
    dsimp only
    omega
  · intro e he
    have := h.before e he
    dsimp only
    omega
  · obtain ⟨sk, lf, h1, h2, h3, h4, h5⟩ := h.prints
    exact ⟨sk, lf, h1, h2, by dsimp only; omega, h4, h5⟩

theorem shows_one {env : Env} {view : View} {v : Win} {side : Bool} {w w' : Win} {c : Bool} {l : List Entry} {it : Item} {rest : List Item}
    {ls : List (Print × Nat)} (hw : Wrote env view side w it rest w' c ls) (h : Shows env view v side true w l) :
    Shows env view v side (!c) w' (l ++ [⟨it, w.y, ls⟩]) := by
  have hy := hw.y
  have hpos := h.pos
  -- either the scroll position is kept, or nothing has been written
  have hcase : w'.scroll = w.scroll ∨ (w.y ≤ w.scroll ∧ w'.scroll = w.y - 1 ∧ w.found = false ∧ isSel w.last side it = true ∧ ∀ e ∈ l, e.ls = []) := by
    have hsc := hw.scroll
    split at hsc
    · next hc =>
      simp only [Bool.and_eq_true, Bool.not_eq_true', decide_eq_true_eq] at hc
      refine .inr ⟨hc.2, hsc, hc.1.1, hc.1.2, ?_⟩
      intro e he
      cases hls : e.ls with
      | nil => rfl
      | cons b bs =>
        have := h.lines e he b (by rw [hls]; exact List.mem_cons_self)
        omega
    · exact .inl hsc
  have hle : w'.scroll ≤ w.scroll := by
    rcases hcase with h | ⟨h1, h2, _⟩ <;> omega
  have hscreen : w.screen = l.flatMap fun e => e.ls.map (cellAt env view v.sel w'.scroll e.it.col) := by
    rw [h.screen]
    rcases hcase with h' | ⟨_, _, _, _, hemp⟩
    · rw [h']
    · have key : ∀ f : Entry → List Cell, (∀ e ∈ l, f e = []) → l.flatMap f = [] := by
        intro f hf
        simp only [List.flatMap_eq_nil_iff]
        exact hf
      rw [key _ (fun e he => by rw [hemp e he]; rfl), key _ (fun e he => by rw [hemp e he]; rfl)]
  refine ⟨hw.sel.trans h.sel, hw.last.trans h.last, hw.results.trans h.results, by omega, ?_, ?_, ?_, ?_, ?_, ?_, ?_, ?_, ?_, ?_⟩
  · obtain ⟨more, h1, h2, _⟩ := h.items
    have h2 := h2 rfl
    rw [hw.rem] at h2
    subst h2
    refine ⟨rest, by rw [h1]; simp, fun hc => (hw.next (by simpa using hc)).2.2.2.2.symm, fun hc => ?_⟩
    exact hw.done (by simpa using hc)
  · rw [hw.screen, hscreen, h.sel]
    simp
  · intro e he b hb
    rcases List.mem_append.mp he with he | he
    · have := h.lines e he b hb
      omega
    · simp only [List.mem_singleton] at he
      subst he
      have := hw.lines b hb
      exact this
  · intro e he
    rcases List.mem_append.mp he with he | he
    · have := h.before e he
      omega
    · simp only [List.mem_singleton] at he
      subst he
      exact ⟨hpos, hy⟩
  · rw [List.flatMap_append, List.pairwise_append]
    refine ⟨h.order, by simpa using hw.order, ?_⟩
    intro a ha b hb
    simp only [List.flatMap_cons, List.flatMap_nil, List.append_nil] at hb
    rw [List.mem_flatMap] at ha
    obtain ⟨e, he, ha⟩ := ha
    have := h.lines e he a ha
    have := hw.lines b hb
    omega
  · rw [List.pairwise_append]
    refine ⟨h.apart, by simp, ?_⟩
    intro a ha b hb
    simp only [List.mem_singleton] at hb
    subst hb
    refine ⟨(h.before a ha).2, fun d hd => ?_⟩
    have := h.lines a ha d hd
    dsimp only
    omega
  · obtain ⟨sk, lf, h1, hk1, hk2, _, h2⟩ := h.prints
    have h2 := h2 rfl
    rw [hw.rem] at h2
    obtain ⟨sk', lf', h3, h4, h4', h5, h6⟩ := hw.prints
    rw [h2, List.flatMap_cons, colPrints, h3] at h1
    have hsk : (l.flatMap (·.texts)) = [] ∨ sk' = [] := by
      cases hl : l.flatMap (·.texts) with
      | nil => exact .inl rfl
      | cons b bs =>
        refine .inr ?_
        rcases h4 with h4 | h4
        · exact h4
        · exfalso
          have hb : b ∈ l.flatMap (·.texts) := by rw [hl]; exact List.mem_cons_self
          rw [List.mem_flatMap] at hb
          obtain ⟨e, he, hb⟩ := hb
          obtain ⟨d, hd, _⟩ := List.mem_map.mp hb
          have := h.lines e he d hd
          rcases hcase with h' | ⟨_, h', _⟩ <;> omega
    have htx : Entry.texts ⟨it, w.y, ls⟩ = (ls.map (·.1)).map fun a => (it.col, a) := by simp [Entry.texts]
    have hmin : sk.length ≤ w'.scroll := by
      rcases hcase with h' | ⟨_, h', _⟩ <;> omega
    have hlen : sk.length + sk'.length ≤ w'.scroll := by
      rcases h4 with h4 | h4
      · subst h4; simpa using hmin
      · omega
    refine ⟨if (l.flatMap (·.texts)) = [] then sk ++ sk'.map (fun a => (it.col, a)) else sk, lf'.map (fun a => (it.col, a)) ++ rest.flatMap (colPrints env view side), ?_, ?_, ?_, fun hc => ?_, fun hc => ?_⟩
    · rw [h1, List.flatMap_append, List.flatMap_cons, List.flatMap_nil, List.append_nil, htx]
      simp only [List.map_append]
      rcases hsk with hl | hl
      · rw [hl]; simp
      · subst hl
        split
        · next hl => rw [hl]; simp
        · simp
    · split
      · rw [List.length_append, List.length_map]; exact hlen
      · exact hmin
    · split
      · rw [List.length_append, List.length_map]; omega
      · omega
    · rcases h6 (by simpa using hc) with ⟨h7, h8⟩ | ⟨h7, h8⟩
      · subst h7 h8; exact .inl rfl
      · refine .inr ?_
        rw [hw.found, Bool.or_eq_true] at h8
        have hlt : w'.scroll < w.y := by
          cases hf : w.found with
          | true =>
            obtain ⟨e, he, hs⟩ := h.found.mp hf
            have h1 := h.seen e he hs
            have h2 := h.before e he
            omega
          | false =>
            rw [hf] at h8
            have h8 : isSel w.last side it = true := by simpa using h8
            have hsc := hw.scroll
            rw [hf, h8] at hsc
            by_cases hlt : w.y ≤ w.scroll
            · rw [if_pos (by simp; omega)] at hsc; omega
            · rw [if_neg (by simp; omega)] at hsc; omega
        obtain ⟨a, _, ha⟩ := hw.head hlt
        cases hls : ls with
        | nil => rw [hls] at ha; cases ha
        | cons x y =>
          obtain ⟨b, hb⟩ : ∃ b, ls.getLast? = some b := ⟨_, List.getLast?_eq_some_getLast (by rw [hls]; simp)⟩
          refine ⟨b, ?_, ?_⟩
          · rw [List.flatMap_append, List.getLast?_append]
            simp [← hls, hb]
          · rw [hw.ending b hb]; exact h7
    · have hc' : c = false := by simpa using hc
      have hlf : lf' = [] := by
        cases lf' with
        | nil => rfl
        | cons a b => have := h5 (by simp); rw [hc'] at this; cases this
      rw [hlf, (hw.next hc').2.2.2.2]
      rfl
  · rw [hw.found, Bool.or_eq_true, h.found, h.last]
    constructor
    · rintro (⟨e, he, h'⟩ | h')
      · exact ⟨e, List.mem_append_left _ he, h'⟩
      · exact ⟨_, List.mem_append_right _ List.mem_cons_self, h'⟩
    · rintro ⟨e, he, h'⟩
      rcases List.mem_append.mp he with he | he
      · exact .inl ⟨e, he, h'⟩
      · simp only [List.mem_singleton] at he
        subst he
        exact .inr h'
  · intro e he hsel
    rcases List.mem_append.mp he with he | he
    · have := h.seen e he hsel
      omega
    · simp only [List.mem_singleton] at he
      subst he
      dsimp only at hsel ⊢
      rcases hcase with h' | ⟨_, h', _⟩
      · rw [h']
        by_cases hlt : w.scroll < w.y
        · exact hlt
        · exfalso
          have hsc := hw.scroll
          rw [h.last, hsel] at hsc
          cases hf : w.found with
          | true =>
            obtain ⟨e, he, hs⟩ := h.found.mp hf
            have h1 := h.seen e he hs
            have h2 := h.before e he
            omega
          | false =>
            rw [hf, if_pos (by simp; omega)] at hsc
            omega
      · omega
  · intro e he hlt
    rcases List.mem_append.mp he with he | he
    · refine h.head e he ?_
      rcases hcase with h' | ⟨_, h', _⟩
      · omega
      · have := h.before e he
        omega
    · simp only [List.mem_singleton] at he
      subst he
      exact hw.head hlt

/-- What a drawing that is done shows. -/
theorem done_shows {env : Env} {n : Nat} {s : St} {a b : Win} (h : redraw env n s = some (.done a b)) :
    ∃ l0 l1, Logged env s.view s.first s.second ⟨false, false, a, b⟩ l0 l1 ∧ Shows env s.view s.first false false a l0 ∧ Shows env s.view s.second true false b l1 := by
  obtain ⟨p, hs, hst⟩ := loop_steps env s.view (fun side => one_y env s.view side) n _ _ _ _ _ h
  obtain ⟨l0, l1, hl, _⟩ := logged_of_steps hs
  cases hst with
  | done =>
    have := hl.win (fun side b w l => Shows env s.view (if side then s.second else s.first) side b w l) (shows_reset ..) (shows_reset ..)
      (fun _ _ _ _ _ _ _ hy hp => shows_same hy hp) (fun _ _ _ _ _ _ _ _ hw hp => shows_one hw hp)
    exact ⟨l0, l1, hl, this.1, this.2⟩

/-- The last of the drawings. -/
theorem settle_last {env : Env} {n k : Nat} {s t : St} (h : settle env n k s = some (some t)) :
    ∃ s1 : St, Keeps s.first s1.first ∧ Keeps s.second s1.second ∧ s1.selected = s.selected ∧ s1.view = s.view ∧
      redraw env n s1 = some (.done t.first t.second) ∧ t = { s1 with first := t.first, second := t.second } := by
  induction k generalizing s with
  | zero => cases h
  | succ k ih =>
    rw [settle] at h
    cases hr : redraw env n s with
    | none => rw [hr] at h; cases h
    | some r =>
      rw [hr] at h
      cases r with
      | crash => cases h
      | done a b =>
        cases h
        exact ⟨s, ⟨rfl, rfl, rfl⟩, ⟨rfl, rfl, rfl⟩, rfl, rfl, hr, rfl⟩
      | retry a b =>
        obtain ⟨ha, hb, _⟩ := retry_spec hr
        have hv := view_keeps ha hb
        obtain ⟨s1, h1, h2, h3, h4, h5, h6⟩ := ih h
        exact ⟨s1, ⟨h1.1.trans ha.1, h1.2.1.trans ha.2.1, h1.2.2.trans ha.2.2⟩, ⟨h2.1.trans hb.1, h2.2.1.trans hb.2.1, h2.2.2.trans hb.2.2⟩, h3, h4.trans hv, h5, h6⟩

/-- What the windows show between two inputs. -/
theorem settle_shows {env : Env} {n k : Nat} {s t : St} (h : settle env n k s = some (some t)) :
    ∃ (v0 v1 : Win) (l0 l1 : List Entry), Keeps s.first v0 ∧ Keeps s.second v1 ∧ Logged env s.view v0 v1 ⟨false, false, t.first, t.second⟩ l0 l1 ∧
      Shows env s.view v0 false false t.first l0 ∧ Shows env s.view v1 true false t.second l1 := by
  obtain ⟨s1, h1, h2, h3, h4, h5, h6⟩ := settle_last h
  obtain ⟨l0, l1, hl, hs0, hs1⟩ := done_shows h5
  rw [h4] at hl hs0 hs1
  exact ⟨_, _, l0, l1, h1, h2, hl, hs0, hs1⟩

end Verif.Lemmas.Split
