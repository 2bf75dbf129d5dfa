import Verif.Lemmas.SplitSel
import Verif.Props.Split
/-! # C71, C73, C77, C78: what the windows of the diff view show -/
namespace Verif.Props
open Verif.Model Verif.Model.Search Verif.Model.Diff Verif.Model.Split Verif.Spec.SplitView Verif.Lemmas.Split
open Verif.Model.Tui (hasReachedBottom)

/-- The window of a document. -/
def windowOf (s : St) (side : Bool) : Win := if side then s.second else s.first

/-! ## C77 -/

/-- **C77.** In every session, between two inputs, each window shows a stretch of the outline of its document (`diffOutline`), without
gaps or repetitions, in order, in its columns, below the title, and no line over another. -/
theorem C77_listing (env : Env) (n k cols rows : Nat) (s : St) (h : Reached env n k cols rows anyInput s) (side : Bool) :
    ∃ pre mid post, diffOutline env s side = pre ++ mid ++ post ∧ Listing side (windowOf s side).screen mid := by
  obtain ⟨⟨_, _, _, _, h0⟩, _, _, _, _, h1⟩ := pics_reached h
  cases side with
  | false =>
    obtain ⟨pre, mid, post, h2, h3, _⟩ := pic_listing h0
    exact ⟨pre, mid, post, h2, h3⟩
  | true =>
    obtain ⟨pre, mid, post, h2, h3, _⟩ := pic_listing h1
    exact ⟨pre, mid, post, h2, h3⟩

/-- **C77, continued.** After any drawing that is completed, that stretch is as long as can be: there are no more lines above it than the
window is scrolled by, and if there are lines below, then the last one shown ends at or below the bottom of the window. -/
theorem C77_filled (env : Env) (n k : Nat) (s t : St) (h : settle env n k s = some (some t)) (side : Bool) :
    ∃ pre mid post, diffOutline env t side = pre ++ mid ++ post ∧ Listing side (windowOf t side).screen mid ∧
      pre.length ≤ (windowOf t side).scroll ∧
      (post = [] ∨ ∃ c l, ((windowOf t side).screen.zip mid).getLast? = some (c, l) ∧ t.height ≤ c.row + l.lines) := by
  obtain ⟨v0, v1, l0, l1, k0, k1, _, h0, h1⟩ := settle_shows h
  have key : ∀ (w v : Win) l, Shows env s.view v side false w l → windowOf t side = w →
      ∃ pre mid post, diffOutline env t side = pre ++ mid ++ post ∧ Listing side (windowOf t side).screen mid ∧
      pre.length ≤ (windowOf t side).scroll ∧
      (post = [] ∨ ∃ c l, ((windowOf t side).screen.zip mid).getLast? = some (c, l) ∧ t.height ≤ c.row + l.lines) := by
    intro w v l hsh hw
    obtain ⟨sk, lf, ts, hp, hb⟩ := pic_of_shows hsh
    rw [← settle_view h] at hp
    obtain ⟨pre, mid, post, h2, h3, h4, h5, h6⟩ := pic_listing hp
    rw [hw]
    refine ⟨pre, mid, post, h2, h3, by rw [h4]; exact hp.skipped, ?_⟩
    rcases hb rfl with hb | ⟨b, hb1, hb2⟩
    · subst hb
      exact .inl (List.length_eq_zero_iff.mp h5)
    · have hlen : ts.length = mid.length := by have := congrArg List.length h6; simpa using this
      obtain ⟨l, hl, hz⟩ := zip_last (f := fun u => cellAt env t.view w.sel w.scroll u.1 u.2) hlen hb1
      rw [← hp.screen] at hz
      refine .inr ⟨_, l, hz, ?_⟩
      have he : asLine (b.1, b.2.1) = ofLine side l := by
        have := congrArg List.getLast? h6
        rw [List.getLast?_map, List.getLast?_map, hb1, hl] at this
        simpa using this
      have he : b.2.1.lines = l.lines := by
        simp only [asLine, ofLine, Prod.mk.injEq] at he
        exact he.2.2.2.2
      have hgt := hp.lines b (List.mem_of_getLast? hb1)
      have hh : s.view.height = t.height := by rw [← settle_view h]; rfl
      rw [hh] at hb2
      unfold hasReachedBottom at hb2
      simp only [Bool.and_eq_true, decide_eq_true_eq] at hb2
      show t.height ≤ b.2.2 - w.scroll + l.lines
      omega
  cases side with
  | false => exact key _ _ _ h0 rfl
  | true => exact key _ _ _ h1 rfl

/-- A list, on a low terminal, with the selection moved down: the window is scrolled, the stretch is in the middle. -/
def longer : Env := splitEnv (.arr [.int 1, .int 2, .int 3, .int 4]) (.arr [.int 1, .int 2, .int 3, .int 4])

example : ∃ s, Reached longer 50 50 80 6 anyInput s ∧ 0 < s.first.scroll ∧ s.first.screen.length < 6 ∧ 3 ≤ s.first.screen.length := by
  obtain ⟨s, hs, hp⟩ := session_some (env := longer) (n := 50) (k := 50) (cols := 80) (rows := 6) (l := List.replicate 4 (skey b!"J"))
    (p := fun s => decide (0 < s.first.scroll ∧ s.first.screen.length < 6 ∧ 3 ≤ s.first.screen.length)) (by decide +kernel)
  exact ⟨s, reached_from _ (fun _ _ _ => trivial) hs, of_decide_eq_true hp⟩

/-! ## C78 -/

/-- **C78.** In every session, between two inputs, a line of a window is highlighted as the selection just if it is of the selected element, or of
the value of the selected entry; and as a search result just if its element is among the results of the active window. -/
theorem C78_highlight (env : Env) (n k cols rows : Nat) (s : St) (h : Reached env n k cols rows anyInput s) (side : Bool) :
    ∀ c ∈ (windowOf s side).screen,
      (c.selected = true ↔ (windowOf s side).sel = some c.who ∨ ∃ q, parent c.who = some q ∧ env.isEntry q = true ∧ (windowOf s side).sel = some q) ∧
      (c.searched = true ↔ c.who ∈ s.active.results) := by
  have key : ∀ w sc sk lf ts, Pic env s.view side w sc sk lf ts → ∀ c ∈ w.screen,
      (c.selected = true ↔ w.sel = some c.who ∨ ∃ q, parent c.who = some q ∧ env.isEntry q = true ∧ w.sel = some q) ∧
      (c.searched = true ↔ c.who ∈ s.active.results) := by
    intro w sc sk lf ts hp c hc
    rw [hp.screen] at hc
    obtain ⟨t, _, rfl⟩ := List.mem_map.mp hc
    refine ⟨?_, ?_⟩
    · show selOf env w.sel t.2.1.who = true ↔ w.sel = some t.2.1.who ∨ ∃ q, parent t.2.1.who = some q ∧ _
      unfold selOf
      rw [Bool.or_eq_true, decide_eq_true_eq]
      cases parent t.2.1.who with
      | none => simp
      | some q => simp
    · show s.active.results.contains t.2.1.who = true ↔ t.2.1.who ∈ s.active.results
      simp
  obtain ⟨⟨_, _, _, _, h0⟩, _, _, _, _, h1⟩ := pics_reached h
  cases side with
  | false => exact key _ _ _ _ _ h0
  | true => exact key _ _ _ _ _ h1

/-- Both occur. -/
example : ∃ s, Reached sample 50 50 80 24 anyInput s ∧ (s.first.screen.any (fun c => c.selected && c.searched)) = true ∧ (s.first.screen.any (fun c => !c.selected && !c.searched)) = true := by
  obtain ⟨s, hs, hp⟩ := session_some (env := sample) (n := 50) (k := 50) (cols := 80) (rows := 24) (l := [sfind b!"aaaa"])
    (p := fun s => decide ((s.first.screen.any (fun c => c.selected && c.searched)) = true ∧ (s.first.screen.any (fun c => !c.selected && !c.searched)) = true)) (by decide +kernel)
  exact ⟨s, reached_from _ (fun _ _ _ => trivial) hs, of_decide_eq_true hp⟩

/-! ## C71 -/

/-- The marks in the margin of a window tell what differs: next to every line of an element that was added, removed or modified there is the mark for
that, and there are no others but those for lines of the other window, next to which there is nothing in this one. -/
structure MarksRight (env : Env) (w : Win) : Prop where
  all : ∀ c ∈ w.screen, env.op c.who ≠ .equ → ⟨c.row, env.op c.who⟩ ∈ w.marks
  only : ∀ m ∈ w.marks, m.op ≠ .equ ∧ ((∃ c ∈ w.screen, c.row = m.row ∧ env.op c.who = m.op) ∨ (m.op = .rem ∧ ∀ c ∈ w.screen, c.row ≠ m.row))

/-- `x` and `y` at the end of two lists. -/
def atEnd : Env := splitEnv (.arr [.int 1, .int 2, .int 3, .str b!"x"]) (.arr [.int 1, .int 2, .int 3, .str b!"y"])

/-- **C71 does not hold**: in a window that is scrolled the marks stay where they were. -/
theorem C71_marks_false : ¬ ∀ (env : Env), Compared env → ∀ (n k cols rows : Nat) (s : St), Reached env n k cols rows noSearch s →
    ∀ side, MarksRight env (windowOf s side) := by
  intro h
  obtain ⟨s, hs, hp⟩ := session_some (env := atEnd) (n := 50) (k := 50) (cols := 80) (rows := 6) (l := List.replicate 4 (skey b!"J"))
    (p := fun s => decide (s.first.marks = [⟨5, .mod⟩] ∧ ∀ c ∈ s.first.screen, c.row ≠ 5)) (by decide +kernel)
  have hp := of_decide_eq_true hp
  have hr : Reached atEnd 50 50 80 6 noSearch s := by
    refine reached_from _ ?_ hs
    intro i hi s
    rw [List.eq_of_mem_replicate hi]
    exact noSearch_key (by decide) (by decide) s
  have := (h atEnd (splitEnv_compared (by decide +kernel)) 50 50 80 6 s hr false).only ⟨5, .mod⟩ (by show _ ∈ s.first.marks; rw [hp.1]; exact List.mem_cons_self)
  rcases this.2 with ⟨c, hc, hrow, _⟩ | ⟨h1, _⟩
  · exact hp.2 c hc hrow
  · cases h1

/-- **C71, in part.** After any drawing that is completed, the marks of a window that is not scrolled are right. -/
theorem C71_marks_partial (env : Env) (n k : Nat) (s t : St) (h : settle env n k s = some (some t)) (side : Bool) (hz : (windowOf t side).scroll = 0) :
    MarksRight env (windowOf t side) := by
  obtain ⟨v0, v1, l0, l1, h0, h1, hs0, hs1⟩ := settle_marked h
  have key : ∀ v w l, Marked env t.view v side false w l → w.scroll = 0 → MarksRight env w := by
    intro v w l hm hz
    have hscr := hm.shows.screen
    have hmark : ∀ b : Print × Nat, markAt env w.scroll b = displayDiffOp b.2 (env.op b.1.who) [] := by
      intro b
      unfold markAt
      rw [hz, Nat.sub_zero]
      split <;> rfl
    constructor
    · intro c hc hop
      rw [hscr] at hc
      obtain ⟨e, he, hc⟩ := List.mem_flatMap.mp hc
      obtain ⟨b, hb, rfl⟩ := List.mem_map.mp hc
      refine hm.all e he b hb _ ?_
      rw [hmark]
      unfold displayDiffOp
      have hop' : env.op b.1.who ≠ .equ := hop
      rw [if_neg hop']
      simp [cellAt, hz]
    · intro m hmm
      rcases hm.only m hmm with ⟨e, he, b, hb, h⟩ | ⟨h1, h2, h3, h4⟩
      · rw [hmark] at h
        unfold displayDiffOp at h
        split at h
        · cases h
        · next hop =>
          simp only [List.nil_append, List.mem_singleton] at h
          subst h
          refine ⟨hop, .inl ⟨cellAt env t.view v.sel w.scroll e.it.col b, ?_, ?_, rfl⟩⟩
          · rw [hscr]
            exact List.mem_flatMap.mpr ⟨e, he, List.mem_map_of_mem hb⟩
          · simp [cellAt, hz]
      · refine ⟨by rw [h1]; simp, .inr ⟨h1, ?_⟩⟩
        intro c hc
        rw [hscr] at hc
        obtain ⟨e, he, hc⟩ := List.mem_flatMap.mp hc
        obtain ⟨b, hb, rfl⟩ := List.mem_map.mp hc
        have hl := hm.shows.lines e he b hb
        have := h4 e he b hb
        show b.2 - w.scroll ≠ m.row
        rw [hz]
        omega
  cases side with
  | false => exact key _ _ _ h0 hz
  | true => exact key _ _ _ h1 hz

/-- A text changed, and a number added. -/
def marked : Env := splitEnv (.arr [.int 3, .str b!"x"]) (.arr [.int 7, .int 3, .str b!"y"])

/-- With marks of both kinds. -/
example : ∃ s, Reached marked 50 50 80 24 noSearch s ∧ s.first.scroll = 0 ∧ s.first.marks = [⟨2, .rem⟩, ⟨4, .mod⟩] := by
  obtain ⟨s, hs, hp⟩ := session_some (env := marked) (n := 50) (k := 50) (cols := 80) (rows := 24) (l := [])
    (p := fun s => decide (s.first.scroll = 0 ∧ s.first.marks = [⟨2, .rem⟩, ⟨4, .mod⟩])) (by decide +kernel)
  exact ⟨s, reached_from _ (fun i hi => by cases hi) hs, of_decide_eq_true hp⟩

/-! ## C73 -/

/-- `1`, and the same after three texts. -/
def pushed : Env := splitEnv (.arr [.int 1]) (.arr [.str b!"AAAA", .str b!"BBBB", .str b!"CCCC", .int 1])

/-- **C73 does not hold**: the lines left free for those of the other window may push the selected one out of its window. -/
theorem C73_selection_false : ¬ ∀ (env : Env), Compared env → ∀ (n k cols rows : Nat) (s : St), Reached env n k cols rows noSearch s → 4 ≤ s.height →
    ∃ c ∈ s.active.screen, c.selected = true ∧ 1 ≤ c.row ∧ c.row < s.height := by
  intro h
  obtain ⟨s, hs, hp⟩ := session_some (env := pushed) (n := 50) (k := 50) (cols := 80) (rows := 6) (l := [skey b!"J"])
    (p := fun s => decide (s.height = 4 ∧ ∀ c ∈ s.active.screen, c.selected = true → c.row = 5)) (by decide +kernel)
  have hp := of_decide_eq_true hp
  have hr : Reached pushed 50 50 80 6 noSearch s := by
    refine reached_from _ ?_ hs
    intro i hi s
    rw [List.mem_singleton.mp hi]
    exact noSearch_key (by decide) (by decide) s
  obtain ⟨c, hc, h1, _, h3⟩ := h pushed (splitEnv_compared (by decide +kernel)) 50 50 80 6 s hr (Nat.le_of_eq hp.1.symm)
  rw [hp.2 c hc h1, hp.1] at h3
  omega

/-- **C73, in part.** In a session without searches, if the selection of a window is an element that has a line of the outline of its own, then that line is shown,
highlighted, at or below the top of the window. -/
theorem C73_selection_partial (env : Env) (n k cols rows : Nat) (s : St) (h : Reached env n k cols rows noSearch s) (side : Bool) (p : Path)
    (hsel : (windowOf s side).sel = some (ptr side p))
    (hline : ∃ l ∈ diffOutline env s side, l.elem = p ∧ l.closing = false) (hown : ∀ q, parent (ptr side p) = some q → env.isEntry q = false) :
    ∃ c ∈ (windowOf s side).screen, c.who = ptr side p ∧ c.closing = false ∧ c.selected = true ∧ 1 ≤ c.row := by
  obtain ⟨s0, hst⟩ := settled_reached h
  obtain ⟨v0, v1, l0, l1, h0, h1, _⟩ := settle_marked hst
  have hsl := selLast_reached h
  cases side with
  | false => exact sel_written h0.shows (hsl.1 _ hsel) (hsel.trans (hsl.1 _ hsel).symm) hown hline
  | true => exact sel_written h1.shows (hsl.2 _ hsel) (hsel.trans (hsl.2 _ hsel).symm) hown hline

end Verif.Props
