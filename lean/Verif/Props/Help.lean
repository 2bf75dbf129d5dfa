import Verif.Model.Texts
import Verif.Spec.Words
import Verif.Props.Params
/-! # C122: the options the help names -/
namespace Verif.Props
open Verif.Model Verif.Model.Params Verif.Spec.Help Verif.Spec.CommandLine

theorem wordsAfter_sep (c : Byte) (hc : separator c = true) (b : Bytes) : ∀ (a cur : Bytes), wordsAfter cur (a ++ c :: b) = wordsAfter cur a ++ words b
  | [], cur => by simp [wordsAfter, hc, words]
  | x :: a, cur => by
    simp only [List.cons_append, wordsAfter]
    split
    · rw [wordsAfter_sep c hc b a []]; simp
    · exact wordsAfter_sep c hc b a _

theorem words_blank (a b : Bytes) : words (a ++ 32 :: b) = words a ++ words b := wordsAfter_sep 32 rfl b a []

theorem usage_parts (prog : Bytes) : Texts.usage prog = b!"Usage:" ++ 32 :: (prog ++ 32 :: (b!"[OPTIONS]\nor:" ++ 32 :: (prog ++ 32 :: (b!"[OPTIONS] FILENAME\nor:" ++ 32 ::
    (prog ++ 32 :: (b!"[OPTIONS] -- INPUT\nor:" ++ 32 :: (prog ++ 32 :: (b!"--diff [OPTIONS] FILENAME FILENAME [FILENAME]\n" ++ Texts.usageBody)))))))) := by
  simp [Texts.usage, Texts.usageHead, List.append_assoc]

/-- The words of the help that begin with a dash. -/
def named : List Bytes :=
  [b!"--", b!"--diff", b!"--compress", b!"-W", b!"--ascii", b!"--keep-order", b!"--color[=MODE]", b!"--compress", b!"--diff-cmd", b!"-v", b!"-version", b!"-h", b!"--helph",
    b!"--diff", b!"--diff-cmd"]

theorem body_words : (words (b!"--diff [OPTIONS] FILENAME FILENAME [FILENAME]\n" ++ Texts.usageBody)).filter (fun w => b!"-".isPrefixOf w) = named.drop 1 := by decide +kernel

theorem usage_words (prog : Bytes) (hp : ∀ w ∈ words prog, ¬ IsOption w) (w : Bytes) (hw : IsOption w) : w ∈ words (Texts.usage prog) ↔ w ∈ named := by
  have hf : ∀ l : Bytes, w ∈ words l ↔ w ∈ (words l).filter (fun w => b!"-".isPrefixOf w) := by
    intro l
    rw [List.mem_filter]
    exact ⟨fun h => ⟨h, List.isPrefixOf_iff_prefix.mpr hw⟩, fun h => h.1⟩
  have hno : w ∉ words prog := fun h => hp w h hw
  rw [usage_parts]
  simp only [words_blank, List.mem_append, hno, false_or]
  rw [hf b!"Usage:", hf b!"[OPTIONS]\nor:", hf b!"[OPTIONS] FILENAME\nor:", hf b!"[OPTIONS] -- INPUT\nor:", hf (b!"--diff [OPTIONS] FILENAME FILENAME [FILENAME]\n" ++ Texts.usageBody), body_words,
    show (words b!"Usage:").filter (fun w => b!"-".isPrefixOf w) = [] by decide,
    show (words b!"[OPTIONS]\nor:").filter (fun w => b!"-".isPrefixOf w) = [] by decide,
    show (words b!"[OPTIONS] FILENAME\nor:").filter (fun w => b!"-".isPrefixOf w) = [] by decide,
    show (words b!"[OPTIONS] -- INPUT\nor:").filter (fun w => b!"-".isPrefixOf w) = [b!"--"] by decide]
  simp [named]

/-- The options the program knows. -/
def known : List Bytes :=
  [b!"--", b!"-W", b!"--ascii", b!"--color", b!"--diff", b!"--compress", b!"--help", b!"-h", b!"--version", b!"-v", b!"--keep-order", b!"--diff-cmd", b!"--color=always",
    b!"--color=never"]

theorem read_one (canOpen : Bytes → Bool) (w : Bytes) : (∃ e, Params.read canOpen [w] = .throw e) ↔ ∃ e, readArg canOpen initial w = .throw e := by
  unfold Params.read readArgs
  cases readArg canOpen initial w with
  | go l =>
    simp only [readArgs]
    constructor
    · rintro ⟨e, h⟩
      revert h
      split
      · split
        · intro h; cases h
        · split <;> intro h <;> cases h
      · intro h; cases h
    · rintro ⟨e, h⟩; cases h
  | stop s => simp
  | throw e => simp

theorem known_iff (canOpen : Bytes → Bool) (w : Bytes) (hw : IsOption w) : (∃ e, Params.read canOpen [w] = .throw e) ↔ w ∉ known := by
  rw [read_one]
  by_cases hk : w ∈ known
  · refine iff_of_false ?_ (fun h => h hk)
    simp only [known, List.mem_cons, List.not_mem_nil, or_false] at hk
    rintro ⟨e, h⟩
    rcases hk with rfl | rfl | rfl | rfl | rfl | rfl | rfl | rfl | rfl | rfl | rfl | rfl | rfl | rfl <;> cases h
  · refine iff_of_true ?_ hk
    simp only [known, List.mem_cons, List.not_mem_nil, or_false, not_or] at hk
    obtain ⟨k1, k2, k3, k4, k5, k6, k7, k8, k9, k10, k11, k12, k13, k14⟩ := hk
    unfold readArg
    rw [if_pos (by rfl), if_neg k1, if_neg k2, if_neg k3, if_neg k4, if_neg k5, if_neg k6, if_neg (by rintro (h | h); exact k7 h; exact k8 h),
      if_neg (by rintro (h | h); exact k9 h; exact k10 h), if_neg k11, if_neg k12]
    by_cases hc : b!"--color=".isPrefixOf w = true
    · rw [if_pos hc]
      obtain ⟨m, rfl⟩ := List.isPrefixOf_iff_prefix.mp hc
      have hd : (b!"--color=" ++ m).drop 8 = m := rfl
      dsimp only
      rw [hd, if_neg (fun h => k13 (by rw [h]; rfl)), if_neg (fun h => k14 (by rw [h]; rfl))]
      exact ⟨_, rfl⟩
    · rw [if_neg hc, if_pos (List.isPrefixOf_iff_prefix.mpr hw)]
      exact ⟨_, rfl⟩

/-- **C122 is false as stated**: the help names `-version` and `--helph`, which are errors; and it does not name `--version` and `--help`. -/
theorem C122_help_false (canOpen : Bytes → Bool) (prog : Bytes) (hp : ∀ w ∈ words prog, ¬ IsOption w) :
    (Documents (Texts.usage prog) b!"-version" ∧ Params.read canOpen [b!"-version"] = .throw (.argument b!"-version")) ∧
    (Documents (Texts.usage prog) b!"--helph" ∧ Params.read canOpen [b!"--helph"] = .throw (.argument b!"--helph")) ∧
    (¬ Documents (Texts.usage prog) b!"--help" ∧ Params.read canOpen [b!"--help"] = .stop .usage) ∧
    (¬ Documents (Texts.usage prog) b!"--version" ∧ Params.read canOpen [b!"--version"] = .stop .version) := by
  have doc : ∀ w, IsOption w → w ∈ named → w ≠ b!"--color[=MODE]" → Documents (Texts.usage prog) w := fun w h1 h2 h3 =>
    ⟨h1, w, (usage_words prog hp w h1).mpr h2, by simp [spellings, h3]⟩
  have undoc : ∀ w, IsOption w → w ∉ named → w ∉ spellings b!"--color[=MODE]" → ¬ Documents (Texts.usage prog) w := by
    rintro w h1 h2 h3 ⟨-, x, hx, hw⟩
    by_cases he : x = b!"--color[=MODE]"
    · rw [he] at hw; exact h3 hw
    · simp only [spellings, if_neg he, List.mem_singleton] at hw
      rw [← hw] at hx
      exact h2 ((usage_words prog hp w h1).mp hx)
  exact ⟨⟨doc _ ⟨b!"version", rfl⟩ (by decide) (by decide), rfl⟩, ⟨doc _ ⟨b!"-helph", rfl⟩ (by decide) (by decide), rfl⟩,
    ⟨undoc _ ⟨b!"-help", rfl⟩ (by decide) (by decide), rfl⟩, ⟨undoc _ ⟨b!"-version", rfl⟩ (by decide) (by decide), rfl⟩⟩

/-- **C122, what is true.** Of all words that begin with a dash, exactly these are accepted: the ones the help names, except `-version` and `--helph`, and besides them `--version` and `--help`.
(The name of the program, which is part of the help, has no word that begins with a dash.) And a word that is not accepted is an error wherever an option can stand, after
any options that are right. -/
theorem C122_help_partial (canOpen : Bytes → Bool) (prog : Bytes) (hp : ∀ w ∈ words prog, ¬ IsOption w) (w : Bytes) (hw : IsOption w) :
    ((¬ ∃ e, Params.read canOpen [w] = .throw e) ↔
      (Documents (Texts.usage prog) w ∧ w ≠ b!"-version" ∧ w ≠ b!"--helph") ∨ w = b!"--version" ∨ w = b!"--help") ∧
    ((∃ e, Params.read canOpen [w] = .throw e) → ∀ (u : List Word) (after : List Bytes), Proper (u ++ [.single w]) → Good canOpen u →
      ∃ e, Params.read canOpen (u.flatMap Word.args ++ w :: after) = .throw e) := by
  rw [known_iff canOpen w hw, Classical.not_not]
  have hdoc : Documents (Texts.usage prog) w ↔ (w ∈ named ∧ w ≠ b!"--color[=MODE]") ∨ w ∈ spellings b!"--color[=MODE]" := by
    constructor
    · rintro ⟨-, x, hx, hwx⟩
      by_cases he : x = b!"--color[=MODE]"
      · rw [he] at hwx; exact .inr hwx
      · simp only [spellings, if_neg he, List.mem_singleton] at hwx
        rw [← hwx] at hx he
        exact .inl ⟨(usage_words prog hp w hw).mp hx, he⟩
    · rintro (⟨h1, h2⟩ | h)
      · exact ⟨hw, w, (usage_words prog hp w hw).mpr h1, by simp [spellings, h2]⟩
      · exact ⟨hw, _, (usage_words prog hp b!"--color[=MODE]" ⟨b!"-color[=MODE]", rfl⟩).mpr (by decide), h⟩
  constructor
  · rw [hdoc]
    constructor
    · intro h
      simp only [known, List.mem_cons, List.not_mem_nil, or_false] at h
      rcases h with rfl | rfl | rfl | rfl | rfl | rfl | rfl | rfl | rfl | rfl | rfl | rfl | rfl | rfl <;> decide
    · rintro (⟨⟨h1, h2⟩ | h, h3, h4⟩ | h | h)
      · simp only [named, List.mem_cons, List.not_mem_nil, or_false] at h1
        rcases h1 with rfl | rfl | rfl | rfl | rfl | rfl | rfl | rfl | rfl | rfl | rfl | rfl | rfl | rfl | rfl <;> first | decide | contradiction
      · simp only [spellings, if_true, List.mem_cons, List.not_mem_nil, or_false] at h
        rcases h with rfl | rfl | rfl <;> decide
      · subst h; decide
      · subst h; decide
  · intro hk u after hpr hu
    have hpw : Proper (u ++ [.single w]) := hpr
    obtain ⟨ws, hws, hargs⟩ := (C46_options_partial canOpen after).1
    have hall : Proper (u ++ .single w :: ws) := by
      have hc := proper_before hpw
      exact (proper_append hc).mpr ⟨((proper_append hc).mp hpw).1, ⟨(((proper_append hc).mp hpw).2).1, (((proper_append hc).mp hpw).2).2.1, hws⟩⟩
    have := ((C46_options_partial canOpen ((u ++ .single w :: ws).flatMap Word.args)).2 _ hall rfl).2.2 u w ws rfl hu (fun h => hk (by
      simp only [flags, List.mem_cons, List.not_mem_nil, or_false] at h
      rcases h with rfl | rfl | rfl | rfl | rfl | rfl | rfl | rfl <;> decide)) (List.isPrefixOf_iff_prefix.mpr hw) (fun h => hk (by rw [h]; decide))
      (fun h => hk (by rw [h]; decide)) (fun h => hk (by rw [h]; decide)) (fun h => hk (by rw [h]; decide))
    simpa [Word.args, hargs] using this

example : (∀ w ∈ words b!"./jsonstroll", ¬ IsOption w) ∧ IsOption b!"--compress" ∧ Documents (Texts.usage b!"./jsonstroll") b!"--compress" ∧
    Proper ([.single b!"-W", .command [b!"diff", b!"{}"]] ++ [.single b!"--nonsense"]) := by
  have h : ∀ w ∈ words b!"./jsonstroll", ¬ IsOption w := by
    intro w hw
    have hw : w ∈ [b!"./jsonstroll"] := hw
    simp only [List.mem_singleton] at hw
    subst hw
    unfold IsOption
    decide
  refine ⟨h, ⟨b!"-compress", rfl⟩, ⟨⟨b!"-compress", rfl⟩, _, (usage_words _ h b!"--compress" ⟨b!"-compress", rfl⟩).mpr (by decide), by decide⟩, ?_⟩
  simp [Proper]

end Verif.Props
