import Verif.Lemmas.SplitQuiet
import Verif.Props.DiffNoSigns
import Verif.Props.SplitScreen
/-! # C143: the diff view of documents that do not differ -/
namespace Verif.Props
open Verif.Model Verif.Model.Search Verif.Model.Diff Verif.Model.Split Verif.Spec Verif.Spec.SplitView Verif.Lemmas.Split Verif.Lemmas.Diff

/-- No sign was put beside a line of the window (`marks`), nor is one among the calls that wrote in it. -/
def Unsigned (w : Win) : Prop := w.marks = [] ∧ ∀ row op, Call.mark row op ∉ w.calls

theorem quiet_signs {env : Env} (h : NoSigns env.left env.right env.table)
    (hs : ∀ p, ((Elem.value env.left).at p).isSome = true ∨ ((Elem.value env.right).at p).isSome = true →
      scan env.order (.left p) = some (.right p) ∧ scan env.order (.right p) = some (.left p)) : Quiet env := by
  intro side p e he
  cases side with
  | false =>
    have he : (Elem.value env.left).at p = some e := he
    have h1 := (hs p (.inl (by rw [he]; rfl))).1
    have h2 := h.1 p e he
    refine ⟨?_, ?_⟩
    · show scan env.order (.left p) ≠ none
      rw [h1]; simp
    · show (env.table.get (.left p)).getD .add = .equ
      rw [h2]; rfl
  | true =>
    have he : (Elem.value env.right).at p = some e := he
    have h1 := (hs p (.inr (by rw [he]; rfl))).2
    have h2 := h.2 p e he
    refine ⟨?_, ?_⟩
    · show scan env.order (.right p) ≠ none
      rw [h1]; simp
    · show (env.table.get (.right p)).getD .add = .equ
      rw [h2]; rfl

theorem quiet_self {env : Env} (hc : Compared env) (he : env.left = env.right) : Quiet env := by
  obtain ⟨hd, hp⟩ := hc
  have hself : ∀ p x, (Elem.value env.left).at p = some x → env.table.get (.left p) = some .equ ∧ env.table.get (.right p) = some .equ ∧
      scan env.order (.left p) = some (.right p) ∧ scan env.order (.right p) = some (.left p) := by
    intro p x hx
    rw [← he] at hd
    have hs := (build_self env.fmt (.value env.left) [] [] env.table hd).equ p x hx (.inl rfl)
    have hg := build_good env.fmt (.value env.left) (.value env.left) [] [] env.table hd
    have := scan_rel hg hp p p
    exact ⟨hs.1, hs.2.1, this.1.mpr hs.2.2, this.2.mpr hs.2.2⟩
  refine quiet_signs ⟨fun p x hx => (hself p x hx).1, fun q y hy => (hself q y (by rw [he]; exact hy)).2.1⟩ ?_
  rintro p (h | h)
  · obtain ⟨x, hx⟩ := Option.isSome_iff_exists.mp h
    exact (hself p x hx).2.2
  · obtain ⟨x, hx⟩ := Option.isSome_iff_exists.mp h
    exact (hself p x (by rw [he]; exact hx)).2.2

/-- **C143.** When a document is compared with itself, there is never a sign in a window of the diff view: not after the first drawing, nor after any moves, searches, foldings, and changes of the size of the
terminal. -/
theorem C143_same (env : Env) (hc : Compared env) (he : env.left = env.right) (n k cols rows : Nat) (s : St) (h : Reached env n k cols rows anyInput s) (side : Bool) :
    Unsigned (windowOf s side) := by
  have := reached_quiet (quiet_self hc he) h
  cases side with
  | false => exact this.1
  | true => exact this.2

/-- **C143, other documents.** The same of two documents that are built alike, with the same keys in the same order, and whose primitives are one by one of the same type and nearly the same.
Missing: texts of 16 MiB or more. -/
theorem C143_indistinct_partial (env : Env) (hc : Compared env) (hi : Indistinct (·.stringify env.fmt) env.left env.right)
    (sa : ShortTexts (·.stringify env.fmt) (.value env.left)) (sb : ShortTexts (·.stringify env.fmt) (.value env.right))
    (n k cols rows : Nat) (s : St) (h : Reached env n k cols rows anyInput s) (side : Bool) : Unsigned (windowOf s side) := by
  obtain ⟨h1, h2⟩ := C132_no_signs_partial env.fmt env.left env.right env.table hc.1 sa sb
  have hn := h1.mpr hi
  have := reached_quiet (quiet_signs hn (h2 hn env.order hc.2)) h
  cases side with
  | false => exact this.1
  | true => exact this.2

/-- A document and a copy of it. -/
def copied : Env := splitEnv (.obj [(b!"list", .arr [.int 1, .int 2, .int 3, .str b!"x"]), (b!"more", .null)]) (.obj [(b!"list", .arr [.int 1, .int 2, .int 3, .str b!"x"]), (b!"more", .null)])

/-- A session that scrolls and searches. -/
example : Compared copied ∧ copied.left = copied.right ∧ ∃ s, Reached copied 50 50 80 6 anyInput s ∧ 0 < s.first.screen.length ∧ 0 < s.second.screen.length ∧ 0 < s.second.scroll := by
  refine ⟨splitEnv_compared (by decide +kernel), rfl, ?_⟩
  obtain ⟨s, hs, hp⟩ := session_some (env := copied) (n := 50) (k := 50) (cols := 80) (rows := 6) (l := List.replicate 4 (skey b!"J") ++ [sfind b!"x"])
    (p := fun s => decide (0 < s.first.screen.length ∧ 0 < s.second.screen.length ∧ 0 < s.second.scroll)) (by decide +kernel)
  exact ⟨s, reached_from _ (fun _ _ _ => trivial) hs, of_decide_eq_true hp⟩

/-- Two documents that are nearly the same. -/
def nearly : Env := splitEnv (.obj [(b!"k", .arr [.int 1234567])]) (.obj [(b!"k", .arr [.int 1234568])])

example : Compared nearly ∧ Indistinct (·.stringify nearly.fmt) nearly.left nearly.right ∧ ShortTexts (·.stringify nearly.fmt) (.value nearly.left) ∧
    ShortTexts (·.stringify nearly.fmt) (.value nearly.right) ∧ ∃ s, Reached nearly 50 50 80 24 anyInput s ∧ 0 < s.first.screen.length := by
  have short : ∀ n : Int, n = 1234567 ∨ n = 1234568 → ShortTexts (·.stringify id) (.value (.obj [(b!"k", .arr [.int n])])) := by
    intro n hn p v hv
    match p with
    | [] => cases hv; show (b!"{ }").length < 2 ^ 24; decide
    | [0] => cases hv
    | [0, 0] => cases hv; show (b!"[ ]").length < 2 ^ 24; decide
    | [0, 0, 0] => cases hv; rcases hn with rfl | rfl <;> decide +kernel
    | 0 :: 0 :: 0 :: i :: p => simp [Elem.at, Elem.kids] at hv
    | 0 :: 0 :: (i + 1) :: p => simp [Elem.at, Elem.kids] at hv
    | 0 :: (i + 1) :: p => simp [Elem.at, Elem.kids] at hv
    | (i + 1) :: p => simp [Elem.at, Elem.kids] at hv
  have hc : Compared nearly := splitEnv_compared (by decide +kernel)
  obtain ⟨s, hs, hp⟩ := session_some (env := nearly) (n := 50) (k := 50) (cols := 80) (rows := 24) (l := [])
    (p := fun s => decide (0 < s.first.screen.length)) (by decide +kernel)
  refine ⟨hc, ?_, short _ (.inl rfl), short _ (.inr rfl), s, reached_from _ (fun _ _ _ => trivial) hs, of_decide_eq_true hp⟩
  refine .objects rfl fun i k k' x y hx hy => ?_
  match i with
  | 0 =>
    cases hx
    cases hy
    refine .arrays rfl fun i x y hx hy => ?_
    match i with
    | 0 =>
      cases hx
      cases hy
      exact .primitives id id rfl ((percent_near (by decide +kernel) (by decide +kernel)).mp (by decide +kernel))
    | i + 1 => cases hx
  | i + 1 => cases hx

end Verif.Props
