import Verif.Lemmas.SplitLogged
import Verif.Spec.SplitOutline
/-!
# The pictures of the diff view between two inputs
-/
namespace Verif.Lemmas.Split
open Verif.Model Verif.Model.Diff Verif.Model.Split Verif.Spec.SplitView
open Verif.Model.Tui (getNbLines hasReachedBottom)

/-- What a turn writes after which everything is drawn again. -/
theorem wrote_retry {env : Env} {view : View} {side : Bool} {w w' : Win} (hs : Sound (env.root side) w.stack) (hx : Col w)
    (ho : redrawOne env view side w = .retry w') :
    ∃ (it : Item) (rest : List Item) (ls : List (Print × Nat)) (sk lf : List Print), remaining (env.root side) (cOf view side) w.x w.stack = it :: rest ∧ w'.sel = w.sel ∧
      w'.screen = w.screen ++ ls.map (cellAt env view w.sel w.scroll it.col) ∧
      prints env view side it = sk ++ ls.map (·.1) ++ lf ∧ (sk = [] ∨ w.y + sk.length ≤ w.scroll + 1) ∧
      (∀ b ∈ ls, w.y ≤ b.2 ∧ w.scroll < b.2) ∧ ls.Pairwise (fun a b => a.2 + a.1.lines ≤ b.2) := by
  obtain ⟨it, rest, t⟩ := turn env view side w hs
  obtain ⟨r1, r2, r3, r4, r5, r6, r7, r8⟩ := t.retry w' ho
  obtain ⟨it', rest', st, hrem, hex, hadd, hdraw, hst⟩ := draw1_eq env view side w hs
  have hsame := t.rem
  rw [hrem] at hsame
  injection hsame with h1 h2
  subst h1 h2
  have hcol : 2 ≤ it'.col := by
    rw [hst.2.1]
    unfold Col at hx
    cases hcl : it'.closing with
    | false => simp only [Bool.false_eq_true, if_false]; omega
    | true =>
      simp only [if_true]
      cases hw : w.stack with
      | nil =>
        rw [hw] at hrem
        simp only [remaining, List.cons.injEq] at hrem
        rw [← hrem.1] at hcl
        cases hcl
      | cons a l => rw [hw] at hx; simp only [List.length_cons] at hx; omega
  obtain ⟨b1, b2, b3, b4, b5, b6, b7, b8, b9, b10, b11⟩ := before_spec side it' st w
  have hl := prints_lines (env := env) (view := view) (side := side) hcol
  have hf := putAll_frame env view (prints env view side it') (before side it' st w)
  have hli := putAll_lines env view (prints env view side it') (before side it' st w)
  have hy := putLines_y env view (before side it' st w) (prints env view side it') hl
  have hfst := putLines_skip env view (before side it' st w) (prints env view side it') hl
  have hxs : (before side it' st w).x = it'.col := by rw [b6, hst.2.1]
  have hsc : (before side it' st w).scroll = w.scroll := by rw [b8]; simp [r1, r2]
  rw [b1, hxs, b9, b10, b4, hsc] at hli
  rw [b4, hsc] at hy hfst
  obtain ⟨sk, lf, f1, f2, f3, f4⟩ := hfst
  have hscr : w'.screen = (putAll env view (prints env view side it') (before side it' st w)).1.screen := by
    have ho' := ho
    rw [redrawOne_eq, hdraw] at ho'
    unfold drawIt at ho'
    cases hp : putAll env view (prints env view side it') (before side it' st w) with
    | mk w2 r =>
      rw [hp] at ho'
      cases r with
      | true =>
        dsimp only at ho'
        simp only [Bool.not_true, Bool.false_and, Bool.false_eq_true, if_false, Bool.false_or] at ho'
        generalize (if it'.closing = true then none else opens (env.root side) (cOf view side) it'.path) = o at ho'
        split at ho'
        · rcases complete_spec env view true (enter o w2) with ⟨h, _⟩ | ⟨u, d, l, h, _⟩ <;> (rw [h] at ho'; cases ho')
        · cases ho'
      | false =>
        dsimp only at ho'
        simp only [Bool.not_false, Bool.true_and, Bool.true_or, if_true] at ho'
        split at ho'
        · cases ho'; rfl
        · rcases complete_spec env view false w2 with ⟨h, _⟩ | ⟨u, d, l, h, _⟩ <;> (rw [h] at ho'; cases ho')
  refine ⟨it', rest', _, sk, lf, hrem, r6, by rw [hscr]; exact hli.1, f1, f2, fun b hb => ⟨(hy.1 b hb).1, (hy.1 b hb).2.1⟩, hy.2.1⟩

/-- The window shows a stretch of its document, drawn for scroll position `sc`. -/
structure Pic (env : Env) (view : View) (side : Bool) (w : Win) (sc : Nat) (sk lf : List (Nat × Print)) (ts : List (Nat × Print × Nat)) : Prop where
  screen : w.screen = ts.map fun t => cellAt env view w.sel sc t.1 t.2
  texts : (itemsAll (cOf view side) (env.root side)).flatMap (colPrints env view side) = sk ++ ts.map (fun t => (t.1, t.2.1)) ++ lf
  skipped : sk.length ≤ sc
  lines : ∀ t ∈ ts, sc < t.2.2
  order : ts.Pairwise (fun a b => a.2.2 + a.2.1.lines ≤ b.2.2)

/-- The log as a list of texts. -/
def logTexts (l : List Entry) : List (Nat × Print × Nat) := l.flatMap fun e => e.ls.map fun b => (e.it.col, b)

theorem logTexts_snd (l : List Entry) : (logTexts l).map (·.2) = l.flatMap (·.ls) := by
  unfold logTexts
  induction l with
  | nil => rfl
  | cons e l ih =>
    simp only [List.flatMap_cons, List.map_append, ih, List.map_map]
    congr 1
    exact List.map_id _

theorem logTexts_texts (l : List Entry) : (logTexts l).map (fun t => (t.1, t.2.1)) = l.flatMap (·.texts) := by
  unfold logTexts
  induction l with
  | nil => rfl
  | cons e l ih => simp [ih, Entry.texts]

theorem logTexts_screen (env : Env) (view : View) (sel : Option Ptr) (sc : Nat) (l : List Entry) :
    (logTexts l).map (fun t => cellAt env view sel sc t.1 t.2) = l.flatMap fun e => e.ls.map (cellAt env view sel sc e.it.col) := by
  unfold logTexts
  induction l with
  | nil => rfl
  | cons e l ih => simp [ih]

theorem pic_of_shows {env : Env} {view : View} {v : Win} {side b : Bool} {w : Win} {l : List Entry} (h : Shows env view v side b w l) :
    ∃ sk lf ts, Pic env view side w w.scroll sk lf ts ∧ (b = false → lf = [] ∨ ∃ t, ts.getLast? = some t ∧ hasReachedBottom (t.2.2 + t.2.1.lines) w.scroll view.height = true) := by
  obtain ⟨sk, lf, h1, h2, h3, h4, h5⟩ := h.prints
  refine ⟨sk, lf, logTexts l, ⟨?_, ?_, h2, ?_, ?_⟩, fun hb => ?_⟩
  · rw [logTexts_screen, h.sel, h.screen]
  · rw [logTexts_texts]; exact h1
  · intro t ht
    unfold logTexts at ht
    obtain ⟨e, he, ht⟩ := List.mem_flatMap.mp ht
    obtain ⟨b, hb, rfl⟩ := List.mem_map.mp ht
    exact (h.lines e he b hb).2.1
  · have := h.order
    rw [← logTexts_snd, List.pairwise_map] at this
    exact this
  · rcases h4 hb with h | ⟨b, h, hr⟩
    · exact .inl h
    · rw [← logTexts_snd, List.getLast?_map, Option.map_eq_some_iff] at h
      obtain ⟨t, ht, rfl⟩ := h
      exact .inr ⟨t, ht, hr⟩

/-- The windows are drawn as they are. -/
def Pics (env : Env) (s : St) : Prop :=
  (∃ sc sk lf ts, Pic env s.view false s.first sc sk lf ts) ∧ ∃ sc sk lf ts, Pic env s.view true s.second sc sk lf ts

theorem settle_view {env : Env} {n k : Nat} {s t : St} (h : settle env n k s = some (some t)) : t.view = s.view := by
  obtain ⟨k0, k1, h1, h2, h3, h4⟩ := settle_keeps h
  have := view_keeps k0 k1
  unfold St.view St.active St.at at this ⊢
  rw [h1, h2, h3, h4]
  exact this

theorem pics_settle {env : Env} {n k : Nat} {s t : St} (h : settle env n k s = some (some t)) : Pics env t := by
  obtain ⟨v0, v1, l0, l1, k0, k1, _, h0, h1⟩ := settle_shows h
  obtain ⟨sk, lf, ts, hp, _⟩ := pic_of_shows h0
  obtain ⟨sk', lf', ts', hp', _⟩ := pic_of_shows h1
  rw [Pics, settle_view h]
  exact ⟨⟨_, _, _, _, hp⟩, _, _, _, _, hp'⟩

theorem pic_same {env : Env} {view : View} {side : Bool} {w w' : Win} {sc : Nat} {sk lf : List (Nat × Print)} {ts : List (Nat × Print × Nat)}
    (h1 : w'.screen = w.screen) (h2 : w'.sel = w.sel) (h : Pic env view side w sc sk lf ts) : Pic env view side w' sc sk lf ts :=
  ⟨by rw [h1, h2]; exact h.screen, h.texts, h.skipped, h.lines, h.order⟩

theorem pic_retry {env : Env} {view : View} {v : Win} {side : Bool} {w w' : Win} {l : List Entry} (h : Shows env view v side true w l)
    (hs : Sound (env.root side) w.stack) (hx : Col w) (ho : redrawOne env view side w = .retry w') :
    ∃ sc sk lf ts, Pic env view side w' sc sk lf ts := by
  obtain ⟨it, rest, ls, sk', lf', h1, h2, h3, h4, h5, h6, h7⟩ := wrote_retry hs hx ho
  obtain ⟨sk, lf, g1, g2, g3, _, g5⟩ := h.prints
  rw [g5 rfl, h1, List.flatMap_cons, colPrints, h4] at g1
  obtain ⟨_, _, _, hp, _⟩ := pic_of_shows h
  by_cases hl : l.flatMap (·.texts) = []
  · have hl' : logTexts l = [] := by
      rw [← logTexts_texts] at hl
      simpa using hl
    refine ⟨w.scroll, sk ++ sk'.map (fun a => (it.col, a)), lf'.map (fun a => (it.col, a)) ++ rest.flatMap (colPrints env view side), ls.map (fun b => (it.col, b)), ?_, ?_, ?_, ?_, ?_⟩
    · rw [h3, h2, h.screen, ← logTexts_screen, hl']
      simp
    · rw [g1, hl]
      simp
    · rw [List.length_append, List.length_map]
      rcases h5 with h5 | h5
      · subst h5; simpa using g2
      · omega
    · intro t ht
      obtain ⟨b, hb, rfl⟩ := List.mem_map.mp ht
      exact (h6 b hb).2
    · rw [List.pairwise_map]
      exact h7
  · have hsk : sk' = [] := by
      rcases h5 with h5 | h5
      · exact h5
      · exfalso
        obtain ⟨b, hb⟩ := List.exists_mem_of_ne_nil _ hl
        obtain ⟨e, he, hb⟩ := List.mem_flatMap.mp hb
        obtain ⟨d, hd, _⟩ := List.mem_map.mp hb
        have := h.lines e he d hd
        omega
    subst hsk
    refine ⟨w.scroll, sk, lf'.map (fun a => (it.col, a)) ++ rest.flatMap (colPrints env view side), logTexts l ++ ls.map (fun b => (it.col, b)), ?_, ?_, g2, ?_, ?_⟩
    · rw [h3, h2, h.screen, List.map_append, logTexts_screen, h.sel]
      simp
    · rw [g1, List.map_append (l₁ := logTexts l), logTexts_texts]
      simp
    · intro t ht
      rcases List.mem_append.mp ht with ht | ht
      · unfold logTexts at ht
        obtain ⟨e, he, ht⟩ := List.mem_flatMap.mp ht
        obtain ⟨b, hb, rfl⟩ := List.mem_map.mp ht
        exact (h.lines e he b hb).2.1
      · obtain ⟨b, hb, rfl⟩ := List.mem_map.mp ht
        exact (h6 b hb).2
    · rw [List.pairwise_append]
      refine ⟨?_, ?_, ?_⟩
      · have := h.order
        rw [← logTexts_snd, List.pairwise_map] at this
        exact this
      · rw [List.pairwise_map]
        exact h7
      · intro a ha b hb
        obtain ⟨b, hb', rfl⟩ := List.mem_map.mp hb
        unfold logTexts at ha
        obtain ⟨e, he, ha⟩ := List.mem_flatMap.mp ha
        obtain ⟨a, ha', rfl⟩ := List.mem_map.mp ha
        have := h.lines e he a ha'
        have := h6 b hb'
        dsimp only
        omega

theorem pics_redraw {env : Env} {n : Nat} {s : St} {a b : Win} (h : redraw env n s = some (.done a b) ∨ redraw env n s = some (.retry a b)) :
    (∃ sc sk lf ts, Pic env s.view false a sc sk lf ts) ∧ ∃ sc sk lf ts, Pic env s.view true b sc sk lf ts := by
  rcases h with h | h
  · obtain ⟨l0, l1, _, h0, h1⟩ := done_shows h
    obtain ⟨sk, lf, ts, hp, _⟩ := pic_of_shows h0
    obtain ⟨sk', lf', ts', hp', _⟩ := pic_of_shows h1
    exact ⟨⟨_, _, _, _, hp⟩, _, _, _, _, hp'⟩
  · obtain ⟨p, hs, hst⟩ := loop_steps env s.view (fun side => one_y env s.view side) n _ _ _ _ _ h
    obtain ⟨l0, l1, hl, s0, s1⟩ := logged_of_steps hs
    have hsh := hl.win (fun side b w l => Shows env s.view (if side then s.second else s.first) side b w l) (shows_reset ..) (shows_reset ..)
      (fun _ _ _ _ _ _ _ hy hp => shows_same hy hp) (fun _ _ _ _ _ _ _ _ hw hp => shows_one hw hp)
    cases hst with
    | @retry0 b1 w0 w1 w w1' ho hsame =>
      obtain ⟨sk', lf', ts', hp', _⟩ := pic_of_shows hsh.2
      exact ⟨pic_retry hsh.1 (s0 rfl).1 (s0 rfl).2 ho, _, _, _, _, pic_same (congrArg Win.screen hsame).symm (congrArg Win.sel hsame).symm hp'⟩
    | @retry1 b0 w0 w1 w w0' hn ho hsame =>
      obtain ⟨sk', lf', ts', hp', _⟩ := pic_of_shows hsh.1
      exact ⟨⟨_, _, _, _, pic_same (congrArg Win.screen hsame).symm (congrArg Win.sel hsame).symm hp'⟩, pic_retry hsh.2 (s1 rfl).1 (s1 rfl).2 ho⟩
    | @retryBoth w0 w1 w w0' c ha ha' ho ho' =>
      obtain ⟨it, rest, ls, hw⟩ := wrote (s0 rfl).1 (s0 rfl).2 ho
      obtain ⟨sk', lf', ts', hp', _⟩ := pic_of_shows (shows_one hw hsh.1)
      exact ⟨⟨_, _, _, _, hp'⟩, pic_retry hsh.2 (s1 rfl).1 (s1 rfl).2 ho'⟩

theorem pics_message {env : Env} {n : Nat} {s t : St} (h : redrawMessage env n s = some (.nextInput t)) : Pics env t := by
  unfold redrawMessage at h
  cases hr : redraw env n s with
  | none => rw [hr] at h; cases h
  | some r =>
    rw [hr] at h
    cases r with
    | crash => cases h
    | retry a b =>
      cases h
      obtain ⟨k0, k1, _⟩ := retry_spec hr
      have := pics_redraw (.inr hr)
      rw [Pics, view_keeps k0 k1]
      exact this
    | done a b =>
      cases h
      obtain ⟨k0, k1⟩ := done_spec hr
      have := pics_redraw (.inl hr)
      rw [Pics, view_keeps k0 k1]
      exact this

theorem pics_key {env : Env} {n : Nat} {name : Bytes} {pat : Option Search.Pattern} {s t : St} (h : Pics env s)
    (he : evalKey env n name pat s = some (.nextInput t)) : Pics env t := by
  have hj : ∀ s0 : St, Jump env n s0 (.nextInput t) → Pics env t := by
    intro s0 hj
    generalize ha : Answer.nextInput t = a at hj
    cases hj with
    | nothing _ hm => subst ha; exact pics_message hm
    | next _ => cases ha
    | wrap _ hm => subst ha; exact pics_message hm
  rcases key_cases he with ⟨_, _, ho⟩ | ⟨_, hs⟩ | ⟨_, hj'⟩
  · generalize ha : Answer.nextInput t = a at ho
    cases ho with
    | quit => cases ha
    | crash _ => cases ha
    | stay => cases ha; exact h
    | select _ => cases ha
    | fold _ => cases ha
    | window d c hd =>
      unfold changeWindow at ha
      split at ha
      · cases ha; exact h
      · dsimp only at ha
        split at ha <;> cases ha
  · rcases search_spec hs with ⟨_, h'⟩ | ⟨p, _, h' | hj'⟩
    · cases h'
    · cases h'
    · exact hj _ hj'
  · exact hj _ hj'

theorem pics_reached {env : Env} {n k cols rows : Nat} {ok : St → Input → Prop} {s : St} (h : Reached env n k cols rows ok s) : Pics env s := by
  induction h with
  | start hs => exact pics_settle hs
  | @input s t i _ _ hs ih =>
    rcases step_cases hs with ⟨c, r, _, hst⟩ | ⟨name, pat, _, ⟨s', he, hst⟩ | he⟩
    · exact pics_settle hst
    · exact pics_settle hst
    · exact pics_key ih he

end Verif.Lemmas.Split
