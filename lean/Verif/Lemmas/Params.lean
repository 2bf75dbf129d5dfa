import Verif.Model.Params
import Verif.Spec.CommandLine
import Verif.Props.FifoMap
/-! # The command line: reading words -/
namespace Verif.Lemmas
open Verif.Model Verif.Model.Params Verif.Spec.CommandLine Verif.Props

/-- The inputs a command line asks for. -/
def inputsOf (ws : List Word) : List (Bytes × Source) :=
  if texts ws = [] then (files ws).map fun f => (f, .file f) else FifoMap.assign ((files ws).map fun f => (f, .file f)) b!"ARGS" .text

/-- What a good command line means. -/
def meaning (ws : List Word) : Settings where
  strict := decide (b!"-W" ∉ singles ws)
  diffMode := decide (b!"--diff" ∈ singles ws)
  ignoreUnicode := decide (b!"--ascii" ∈ singles ws)
  colorMode := (colours ws).getLast?.getD true
  sorted := decide (b!"--keep-order" ∉ singles ws)
  compressMode := decide (b!"--compress" ∈ singles ws)
  diffCmd := (commands ws).head?
  inputs := inputsOf ws
  argsText := joined ((texts ws).head?.getD [])

theorem singles_append (u v : List Word) : singles (u ++ v) = singles u ++ singles v := List.filterMap_append
theorem commands_append (u v : List Word) : commands (u ++ v) = commands u ++ commands v := List.filterMap_append
theorem texts_append (u v : List Word) : texts (u ++ v) = texts u ++ texts v := List.filterMap_append
theorem files_append (u v : List Word) : files (u ++ v) = files u ++ files v := by simp [files, singles_append]
theorem colours_append (u v : List Word) : colours (u ++ v) = colours u ++ colours v := by simp [colours, singles_append]

theorem closed_texts {ws : List Word} (h : Closed ws) : texts ws = [] := by
  rw [texts, List.filterMap_eq_nil_iff]
  intro w hw
  have := h w hw
  cases w <;> simp_all

theorem closed_append {u v : List Word} (hu : Closed u) (hv : Closed v) : Closed (u ++ v) := by
  intro w hw
  rcases List.mem_append.mp hw with h | h
  · exact hu w h
  · exact hv w h

/-- The state betweenWords the words. -/
def betweenWords (ws : List Word) : Local := ⟨meaning ws, false, false, false⟩

theorem assign_new {V : Type} (m : List (Bytes × V)) (k : Bytes) (v : V) (h : k ∉ m.map (·.1)) : FifoMap.assign m k v = m ++ [(k, v)] := by
  induction m with
  | nil => rfl
  | cons e m ih =>
    simp only [List.map_cons, List.mem_cons, not_or] at h
    rw [FifoMap.assign, if_neg (Ne.symm h.1), ih h.2]
    rfl

theorem map_files (fs : List Bytes) : (fs.map fun f => (f, Source.file f)).map (·.1) = fs := by simp [Function.comp_def]

/-- A flag. -/
theorem read_flag (canOpen : Bytes → Bool) (ws : List Word) (hc : Closed ws) (a : Bytes) (ha : a ∈ flags) :
    readArg canOpen (betweenWords ws) a = .go (betweenWords (ws ++ [.single a])) := by
  have ht := closed_texts hc
  have ht' : texts (ws ++ [.single a]) = [] := by rw [texts_append, ht]; rfl
  have hcm : commands (ws ++ [.single a]) = commands ws := by rw [commands_append]; simp [commands]
  have hs : singles (ws ++ [.single a]) = singles ws ++ [a] := by rw [singles_append]; rfl
  have hf : files (ws ++ [.single a]) = files ws := by
    rw [files_append]
    simp only [flags, List.mem_cons, List.not_mem_nil, or_false] at ha
    rcases ha with rfl | rfl | rfl | rfl | rfl | rfl | rfl | rfl <;> simp [files, singles, List.isPrefixOf]
  have hi : inputsOf (ws ++ [.single a]) = inputsOf ws := by simp only [inputsOf, ht, ht', hf]
  simp only [flags, List.mem_cons, List.not_mem_nil, or_false] at ha
  rcases ha with rfl | rfl | rfl | rfl | rfl | rfl | rfl | rfl <;>
    simp [readArg, betweenWords, meaning, hs, hcm, hi, ht, ht', colours, List.isPrefixOf, List.filterMap_append]

/-- A file. -/
theorem read_file (canOpen : Bytes → Bool) (ws : List Word) (hc : Closed ws) (a : Bytes) (ha : b!"-".isPrefixOf a = false) :
    readArg canOpen (betweenWords ws) a =
      if canOpen a = false then .throw (.cannotOpen a)
      else if a ∈ files ws then .throw (.identical a) else .go (betweenWords (ws ++ [.single a])) := by
  have ht := closed_texts hc
  have ht' : texts (ws ++ [.single a]) = [] := by rw [texts_append, ht]; rfl
  have hcm : commands (ws ++ [.single a]) = commands ws := by rw [commands_append]; simp [commands]
  have hs : singles (ws ++ [.single a]) = singles ws ++ [a] := by rw [singles_append]; rfl
  have hf : files (ws ++ [.single a]) = files ws ++ [a] := by
    rw [files_append]; simp [files, singles, ha]
  have hne : ∀ x, b!"-".isPrefixOf x = true → a ≠ x := by
    intro x hx h; subst h; rw [ha] at hx; cases hx
  have hne' : ∀ x, b!"-".isPrefixOf x = true → x ≠ a := fun x hx h => hne x hx h.symm
  have hcol : colours (ws ++ [.single a]) = colours ws := by
    rw [colours_append]
    simp only [colours, singles, List.filterMap_cons, List.filterMap_nil]
    rw [if_neg (by rintro (h | h); exact hne _ (by decide) h; exact hne _ (by decide) h), if_neg (hne _ (by decide))]
    simp
  have hcp : b!"--color=".isPrefixOf a = false := by
    cases a with
    | nil => rfl
    | cons b a =>
      simp only [List.isPrefixOf, Bool.and_eq_false_iff] at ha ⊢
      rcases ha with h | h
      · exact .inl h
      · cases h
  have hin : (betweenWords ws).set.inputs = (files ws).map fun f => (f, .file f) := by simp [betweenWords, meaning, inputsOf, ht]
  unfold readArg
  rw [show (!(betweenWords ws).input && !(betweenWords ws).inDiff) = true from rfl, if_pos rfl]
  rw [if_neg (hne _ (by decide)), if_neg (hne _ (by decide)), if_neg (hne _ (by decide)), if_neg (hne _ (by decide)), if_neg (hne _ (by decide)),
    if_neg (hne _ (by decide)), if_neg (by rintro (h | h); exact hne _ (by decide) h; exact hne _ (by decide) h),
    if_neg (by rintro (h | h); exact hne _ (by decide) h; exact hne _ (by decide) h), if_neg (hne _ (by decide)), if_neg (hne _ (by decide)),
    if_neg (by rw [hcp]; decide), if_neg (by rw [ha]; decide)]
  by_cases h1 : canOpen a = false
  · rw [if_pos (by simp [h1]), if_pos h1]
  · rw [if_neg (by simpa using h1), if_neg h1, hin]
    by_cases h2 : a ∈ files ws
    · rw [if_pos ((contains_iff _ _).mpr (by rw [map_files]; exact h2)), if_pos h2]
    · rw [if_neg (by rw [contains_iff, map_files]; exact h2), if_neg h2, assign_new _ _ _ (by rw [map_files]; exact h2)]
      have m1 : ∀ x, b!"-".isPrefixOf x = true → (x ∈ singles (ws ++ [.single a]) ↔ x ∈ singles ws) := by
        intro x hx; rw [hs]; simp [hne' x hx]
      simp only [betweenWords, meaning, inputsOf, ht, ht', hcm, hcol, hf, m1 b!"-W" rfl, m1 b!"--ascii" rfl, m1 b!"--diff" rfl, m1 b!"--keep-order" rfl,
        m1 b!"--compress" rfl, List.map_append, List.map_cons, List.map_nil, if_true]

/-- Inside a command. -/
theorem read_command_args (canOpen : Bytes → Bool) : ∀ (as : List Bytes) (l : Local) (c : List Bytes) (rest : List Bytes), b!";" ∉ as → l.inDiff = true →
    l.set.diffCmd = some c → readArgs canOpen l (as ++ rest) = readArgs canOpen { l with set := { l.set with diffCmd := some (c ++ as) } } rest
  | [], l, c, rest, _, _, hd => by
    obtain ⟨s, i, w, d⟩ := l
    cases s
    simp only at hd
    subst hd
    simp
  | a :: as, l, c, rest, h, hi, hd => by
    simp only [List.mem_cons, not_or] at h
    rw [List.cons_append, readArgs]
    have : readArg canOpen l a = .go { l with set := { l.set with diffCmd := some (c ++ [a]) } } := by
      unfold readArg
      rw [if_neg (by simp [hi]), if_pos hi, if_neg (Ne.symm h.1), hd]
      rfl
    rw [this]
    simp only
    refine (read_command_args canOpen as { l with set := { l.set with diffCmd := some (c ++ [a]) } } (c ++ [a]) rest h.2 hi rfl).trans ?_
    simp

theorem read_cmd_word (canOpen : Bytes → Bool) (l : Local) (h : l.input = false ∧ l.inDiff = false) :
    readArg canOpen l b!"--diff-cmd" = if l.set.diffCmd.isSome then .throw .doubleDiffCmd
      else .go { l with inDiff := true, set := { l.set with diffCmd := some [] } } := by
  unfold readArg
  rw [if_pos (by simp [h])]
  simp

/-- A command. -/
theorem read_command (canOpen : Bytes → Bool) (ws : List Word) (hc : Closed ws) (as : List Bytes) (h : b!";" ∉ as) (rest : List Bytes) :
    readArgs canOpen (betweenWords ws) ((Word.command as).args ++ rest) =
      if commands ws = [] then readArgs canOpen (betweenWords (ws ++ [.command as])) rest else .throw .doubleDiffCmd := by
  have ht := closed_texts hc
  have ht' : texts (ws ++ [.command as]) = [] := by rw [texts_append, ht]; rfl
  have hcm : commands (ws ++ [.command as]) = commands ws ++ [as] := by rw [commands_append]; rfl
  have hs : singles (ws ++ [.command as]) = singles ws := by rw [singles_append]; simp [singles]
  have hf : files (ws ++ [.command as]) = files ws := by rw [files, hs]; rfl
  have hcol : colours (ws ++ [.command as]) = colours ws := by rw [colours, hs]; rfl
  rw [Word.args, List.cons_append, List.cons_append, readArgs, read_cmd_word _ _ ⟨rfl, rfl⟩]
  by_cases h1 : commands ws = []
  · rw [if_pos h1, if_neg (by simp [betweenWords, meaning, h1])]
    simp only
    rw [List.append_assoc, read_command_args canOpen as _ [] _ h rfl rfl]
    rw [List.cons_append, List.nil_append, readArgs]
    congr 1
    simp [readArg, betweenWords, meaning, inputsOf, ht, ht', hcm, hs, hf, hcol, h1]
  · rw [if_neg h1, if_pos]
    simp only [betweenWords, meaning]
    cases hcs : commands ws with
    | nil => exact absurd hcs h1
    | cons c cs => rfl

/-- A command to the end. -/
theorem read_openCommand (canOpen : Bytes → Bool) (ws : List Word) (hc : Closed ws) (as : List Bytes) (h : b!";" ∉ as) :
    readArgs canOpen (betweenWords ws) ((Word.openCommand as).args) =
      if commands ws = [] then .go { betweenWords (ws ++ [.openCommand as]) with inDiff := true } else .throw .doubleDiffCmd := by
  have ht := closed_texts hc
  have ht' : texts (ws ++ [.openCommand as]) = [] := by rw [texts_append, ht]; rfl
  have hcm : commands (ws ++ [.openCommand as]) = commands ws ++ [as] := by rw [commands_append]; rfl
  have hs : singles (ws ++ [.openCommand as]) = singles ws := by rw [singles_append]; simp [singles]
  have hf : files (ws ++ [.openCommand as]) = files ws := by rw [files, hs]; rfl
  have hcol : colours (ws ++ [.openCommand as]) = colours ws := by rw [colours, hs]; rfl
  rw [Word.args, readArgs, read_cmd_word _ _ ⟨rfl, rfl⟩]
  by_cases h1 : commands ws = []
  · rw [if_pos h1, if_neg (by simp [betweenWords, meaning, h1])]
    simp only
    have := read_command_args canOpen as { betweenWords ws with inDiff := true, set := { (betweenWords ws).set with diffCmd := some [] } } [] [] h rfl rfl
    rw [List.append_nil] at this
    rw [this, readArgs]
    simp [betweenWords, meaning, inputsOf, ht, ht', hcm, hs, hf, hcol, h1]
  · rw [if_neg h1, if_pos]
    simp only [betweenWords, meaning]
    cases hcs : commands ws with
    | nil => exact absurd hcs h1
    | cons c cs => rfl

/-- Inside the text. -/
theorem read_text_args (canOpen : Bytes → Bool) : ∀ (as : List Bytes) (l : Local), l.input = true → l.inDiff = false →
    readArgs canOpen l as = .go { l with
      written := l.written || !as.isEmpty
      set := { l.set with argsText := l.set.argsText ++ (if l.written && !as.isEmpty then b!" " else []) ++ joined as } }
  | [], l, h, _ => by
    obtain ⟨s, i, w, d⟩ := l
    cases s
    simp [readArgs, joined]
  | a :: as, l, h, hd => by
    rw [readArgs]
    have : readArg canOpen l a = .go { l with written := true, set := { l.set with argsText := l.set.argsText ++ (if l.written then b!" " else []) ++ a } } := by
      unfold readArg
      rw [if_neg (by simp [h]), if_neg (by simp [hd])]
    rw [this]
    simp only
    refine (read_text_args canOpen as
      { l with written := true, set := { l.set with argsText := l.set.argsText ++ (if l.written then b!" " else []) ++ a } } h hd).trans ?_
    cases as with
    | nil => simp [joined]
    | cons b as => simp [joined]

theorem read_text (canOpen : Bytes → Bool) (ws : List Word) (hc : Closed ws) (as : List Bytes) :
    readArgs canOpen (betweenWords ws) ((Word.text as).args) = .go { betweenWords (ws ++ [.text as]) with input := true, written := !as.isEmpty } := by
  have ht := closed_texts hc
  have ht' : texts (ws ++ [.text as]) = [as] := by rw [texts_append, ht]; rfl
  have hcm : commands (ws ++ [.text as]) = commands ws := by rw [commands_append]; simp [commands]
  have hs : singles (ws ++ [.text as]) = singles ws := by rw [singles_append]; simp [singles]
  have hf : files (ws ++ [.text as]) = files ws := by rw [files, hs]; rfl
  have hcol : colours (ws ++ [.text as]) = colours ws := by rw [colours, hs]; rfl
  rw [Word.args, readArgs]
  have : readArg canOpen (betweenWords ws) b!"--" =
      .go { betweenWords ws with input := true, set := { (betweenWords ws).set with inputs := FifoMap.assign (betweenWords ws).set.inputs b!"ARGS" .text } } := by
    rfl
  rw [this]
  simp only
  rw [read_text_args canOpen as _ rfl rfl]
  simp [betweenWords, meaning, inputsOf, ht, ht', hcm, hs, hf, hcol, joined]

end Verif.Lemmas
