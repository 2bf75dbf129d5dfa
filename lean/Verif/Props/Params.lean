import Verif.Lemmas.Params
/-! # C46–C49: the command line -/
namespace Verif.Props
open Verif.Model Verif.Model.Params Verif.Spec.CommandLine Verif.Lemmas

theorem proper_append : ∀ {u v : List Word}, Closed u → (Proper (u ++ v) ↔ Proper u ∧ Proper v)
  | [], v, _ => by simp [Proper]
  | .single a :: u, v, h => by
    simp only [List.cons_append, Proper, proper_append (u := u) (v := v) fun w hw => h w (by simp [hw])]
    constructor
    · rintro ⟨h1, h2, h3, h4⟩; exact ⟨⟨h1, h2, h3⟩, h4⟩
    · rintro ⟨⟨h1, h2, h3⟩, h4⟩; exact ⟨h1, h2, h3, h4⟩
  | .command as :: u, v, h => by
    simp only [List.cons_append, Proper, proper_append (u := u) (v := v) fun w hw => h w (by simp [hw])]
    constructor
    · rintro ⟨h1, h3, h4⟩; exact ⟨⟨h1, h3⟩, h4⟩
    · rintro ⟨⟨h1, h3⟩, h4⟩; exact ⟨h1, h3, h4⟩
  | .openCommand as :: u, v, h => (h (.openCommand as) (by simp)).elim
  | .text as :: u, v, h => (h (.text as) (by simp)).elim

theorem proper_before : ∀ {u : List Word} {w : Word} {v : List Word}, Proper (u ++ w :: v) → Closed u
  | [], w, v, _ => by intro w hw; cases hw
  | .single a :: u, w, v, h => by
    intro x hx
    rcases List.mem_cons.mp hx with rfl | hx
    · trivial
    · exact proper_before (u := u) h.2.2 x hx
  | .command as :: u, w, v, h => by
    intro x hx
    rcases List.mem_cons.mp hx with rfl | hx
    · trivial
    · exact proper_before (u := u) h.2 x hx
  | .openCommand as :: u, w, v, h => by have := h.2; simp at this
  | .text as :: u, w, v, h => by have : u ++ w :: v = [] := h; simp at this

theorem Good.prefix {canOpen : Bytes → Bool} {u v : List Word} (hc : Closed u) (h : Good canOpen (u ++ v)) : Good canOpen u where
  proper := ((proper_append hc).mp h.proper).1
  options := fun a ha => h.options a (by rw [singles_append]; simp [ha])
  opened := fun f hf => h.opened f (by rw [files_append]; simp [hf])
  distinct := by have := h.distinct; rw [files_append] at this; exact (List.nodup_append.mp this).1
  command := by have := h.command; rw [commands_append] at this; simp at this; omega

theorem readArgs_append (canOpen : Bytes → Bool) : ∀ (u v : List Bytes) (l : Local), readArgs canOpen l (u ++ v) =
    match readArgs canOpen l u with
    | .go l => readArgs canOpen l v
    | o => o
  | [], v, l => rfl
  | a :: u, v, l => by
    rw [List.cons_append, readArgs, readArgs]
    cases h : readArg canOpen l a with
    | go l' => simp only; exact readArgs_append canOpen u v l'
    | stop s => rfl
    | throw e => rfl

/-- What is wrong with a word, after the words `pre`. -/
def complaint (canOpen : Bytes → Bool) (pre : List Word) : Word → Option (Outcome Settings)
  | .single a =>
    if a ∈ flags then none
    else if a = b!"--help" ∨ a = b!"-h" then some (.stop .usage)
    else if a = b!"--version" ∨ a = b!"-v" then some (.stop .version)
    else if b!"--color=".isPrefixOf a then some (.throw (.color (a.drop 8)))
    else if b!"-".isPrefixOf a then some (.throw (.argument a))
    else if canOpen a = false then some (.throw (.cannotOpen a))
    else if a ∈ files pre then some (.throw (.identical a))
    else none
  | .command _ => if commands pre = [] then none else some (.throw .doubleDiffCmd)
  | .openCommand _ => if commands pre = [] then none else some (.throw .doubleDiffCmd)
  | .text _ => none

/-- An outcome that is no result. -/
def failed : Outcome Settings → Outcome Local
  | .go _ => .stop .usage
  | .stop s => .stop s
  | .throw e => .throw e

theorem read_option (canOpen : Bytes → Bool) (pre : List Word) (a : Bytes) (h1 : a ∉ flags) (h2 : a ≠ b!"--" ∧ a ≠ b!"--diff-cmd") (h3 : b!"-".isPrefixOf a = true) :
    readArg canOpen (betweenWords pre) a =
      if a = b!"--help" ∨ a = b!"-h" then .stop .usage
      else if a = b!"--version" ∨ a = b!"-v" then .stop .version
      else if b!"--color=".isPrefixOf a then .throw (.color (a.drop 8))
      else .throw (.argument a) := by
  simp only [flags, List.mem_cons, List.not_mem_nil, or_false, not_or] at h1
  obtain ⟨n1, n2, n3, n4, n5, n6, n7, n8⟩ := h1
  unfold readArg
  rw [show (!(betweenWords pre).input && !(betweenWords pre).inDiff) = true from rfl, if_pos rfl, if_neg h2.1, if_neg n1, if_neg n2, if_neg n3, if_neg n6, if_neg n7]
  split
  · rfl
  split
  · rfl
  rw [if_neg h2.2]
  split
  · next h =>
    obtain ⟨t, rfl⟩ := List.isPrefixOf_iff_prefix.mp h
    have hd : ((b!"--color=" ++ t).drop 8) = t := rfl
    simp only [hd]
    rw [if_neg (by rintro rfl; exact n4 rfl), if_neg (by rintro rfl; exact n5 rfl)]
  · rfl

/-- A word, read. -/
theorem read_word (canOpen : Bytes → Bool) (pre : List Word) (hc : Closed pre) (w : Word) (hw : Proper [w]) (rest : List Bytes)
    (hrest : Closed [w] ∨ rest = []) :
    (∀ o, complaint canOpen pre w = some o → readArgs canOpen (betweenWords pre) (w.args ++ rest) = failed o) ∧
    (complaint canOpen pre w = none → (Closed [w] → readArgs canOpen (betweenWords pre) (w.args ++ rest) = readArgs canOpen (betweenWords (pre ++ [w])) rest) ∧
      (¬ Closed [w] → ∃ l, readArgs canOpen (betweenWords pre) w.args = .go l ∧ l.set = meaning (pre ++ [w]))) := by
  cases w with
  | single a =>
    have hcl : Closed [Word.single a] := by intro w hw; simp at hw; subst hw; trivial
    rw [Word.args, List.cons_append, List.nil_append, readArgs]
    by_cases h1 : a ∈ flags
    · rw [read_flag canOpen pre hc a h1]
      simp [complaint, h1, hcl]
    · by_cases h2 : b!"-".isPrefixOf a = true
      · rw [read_option canOpen pre a h1 ⟨hw.1, hw.2.1⟩ h2]
        simp only [complaint, if_neg h1, if_pos h2]
        split
        · exact ⟨by rintro o ⟨⟩; rfl, by simp⟩
        split
        · exact ⟨by rintro o ⟨⟩; rfl, by simp⟩
        split
        · exact ⟨by rintro o ⟨⟩; rfl, by simp⟩
        · exact ⟨by rintro o ⟨⟩; rfl, by simp⟩
      · have h2 : b!"-".isPrefixOf a = false := Bool.eq_false_iff.mpr h2
        have hne : ∀ x, b!"-".isPrefixOf x = true → a ≠ x := by
          intro x hx h; subst h; rw [h2] at hx; cases hx
        have hcp : b!"--color=".isPrefixOf a = false := by
          cases a with
          | nil => rfl
          | cons b a =>
            simp only [List.isPrefixOf, Bool.and_eq_false_iff] at h2 ⊢
            rcases h2 with h | h
            · exact .inl h
            · cases h
        rw [read_file canOpen pre hc a h2]
        simp only [complaint, if_neg h1]
        rw [if_neg (by rintro (h | h); exact hne _ (by decide) h; exact hne _ (by decide) h),
          if_neg (by rintro (h | h); exact hne _ (by decide) h; exact hne _ (by decide) h), if_neg (by rw [hcp]; decide), if_neg (by rw [h2]; decide)]
        split
        · exact ⟨by rintro o ⟨⟩; rfl, by simp⟩
        split
        · exact ⟨by rintro o ⟨⟩; rfl, by simp⟩
        · exact ⟨by simp, fun _ => ⟨fun _ => rfl, fun h => absurd hcl h⟩⟩
  | command as =>
    have hcl : Closed [Word.command as] := by intro w hw; simp at hw; subst hw; trivial
    rw [read_command canOpen pre hc as hw.1]
    simp only [complaint]
    split
    · exact ⟨by simp, fun _ => ⟨fun _ => rfl, fun h => absurd hcl h⟩⟩
    · exact ⟨by rintro o ⟨⟩; rfl, by simp⟩
  | openCommand as =>
    have hcl : ¬ Closed [Word.openCommand as] := fun h => h (.openCommand as) (by simp)
    have hr : rest = [] := hrest.resolve_left hcl
    subst hr
    rw [List.append_nil, read_openCommand canOpen pre hc as hw.1]
    simp only [complaint]
    split
    · exact ⟨by simp, fun _ => ⟨fun h => absurd h hcl, fun _ => ⟨_, rfl, rfl⟩⟩⟩
    · exact ⟨by rintro o ⟨⟩; rfl, by simp⟩
  | text as =>
    have hcl : ¬ Closed [Word.text as] := fun h => h (.text as) (by simp)
    have hr : rest = [] := hrest.resolve_left hcl
    subst hr
    rw [List.append_nil, read_text canOpen pre hc as]
    exact ⟨by simp [complaint], fun _ => ⟨fun h => absurd h hcl, fun _ => ⟨_, rfl, rfl⟩⟩⟩

theorem good_snoc {canOpen : Bytes → Bool} {pre : List Word} {w : Word} (hc : Closed pre) (hg : Good canOpen pre) (hw : Proper [w]) :
    Good canOpen (pre ++ [w]) ↔ complaint canOpen pre w = none := by
  have hp : Proper (pre ++ [w]) := (proper_append hc).mpr ⟨hg.proper, hw⟩
  cases w with
  | single a =>
    have hs : singles (pre ++ [.single a]) = singles pre ++ [a] := by rw [singles_append]; rfl
    have hcm : commands (pre ++ [.single a]) = commands pre := by rw [commands_append]; simp [commands]
    have hf : files (pre ++ [.single a]) = if b!"-".isPrefixOf a then files pre else files pre ++ [a] := by
      rw [files_append]; simp only [files, singles, List.filterMap_cons, List.filterMap_nil, List.filter_cons, List.filter_nil]
      cases h : b!"-".isPrefixOf a <;> simp
    constructor
    · intro h
      by_cases h1 : a ∈ flags
      · simp [complaint, h1]
      · have h2 : b!"-".isPrefixOf a = false := (h.options a (by rw [hs]; simp)).resolve_left h1
        have hne : ∀ x, b!"-".isPrefixOf x = true → a ≠ x := by
          intro x hx h; subst h; rw [h2] at hx; cases hx
        have hcp : b!"--color=".isPrefixOf a = false := by
          cases a with
          | nil => rfl
          | cons b a =>
            simp only [List.isPrefixOf, Bool.and_eq_false_iff] at h2 ⊢
            rcases h2 with h | h
            · exact .inl h
            · cases h
        have ho := h.opened a (by rw [hf, h2]; simp)
        have hd := h.distinct
        rw [hf, h2] at hd
        simp only [Bool.false_eq_true, if_false] at hd
        simp only [complaint, if_neg h1]
        rw [if_neg (by rintro (h | h); exact hne _ (by decide) h; exact hne _ (by decide) h),
          if_neg (by rintro (h | h); exact hne _ (by decide) h; exact hne _ (by decide) h), if_neg (by rw [hcp]; decide), if_neg (by rw [h2]; decide),
          if_neg (by rw [ho]; decide), if_neg]
        intro hm
        rw [List.nodup_append] at hd
        exact hd.2.2 a hm a (by simp) rfl
    · intro h
      simp only [complaint] at h
      by_cases h1 : a ∈ flags
      · have h2 : b!"-".isPrefixOf a = true := by
          simp only [flags, List.mem_cons, List.not_mem_nil, or_false] at h1
          rcases h1 with rfl | rfl | rfl | rfl | rfl | rfl | rfl | rfl <;> rfl
        rw [h2] at hf
        exact ⟨hp, fun x hx => by
          rw [hs] at hx
          rcases List.mem_append.mp hx with hx | hx
          · exact hg.options x hx
          · simp only [List.mem_singleton] at hx; subst hx; exact .inl h1,
          fun f hx => hg.opened f (by rw [hf] at hx; exact hx), by rw [hf]; exact hg.distinct, by rw [hcm]; exact hg.command⟩
      · rw [if_neg h1] at h
        split at h
        · cases h
        split at h
        · cases h
        split at h
        · cases h
        split at h
        · cases h
        split at h
        · cases h
        split at h
        · cases h
        next h2 h3 h4 =>
        have h2 : b!"-".isPrefixOf a = false := Bool.eq_false_iff.mpr h2
        rw [h2] at hf
        simp only [Bool.false_eq_true, if_false] at hf
        refine ⟨hp, fun x hx => ?_, fun f hx => ?_, ?_, by rw [hcm]; exact hg.command⟩
        · rw [hs] at hx
          rcases List.mem_append.mp hx with hx | hx
          · exact hg.options x hx
          · simp only [List.mem_singleton] at hx; subst hx; exact .inr h2
        · rw [hf] at hx
          rcases List.mem_append.mp hx with hx | hx
          · exact hg.opened f hx
          · simp only [List.mem_singleton] at hx; subst hx; simpa using h3
        · rw [hf, List.nodup_append]
          exact ⟨hg.distinct, by simp, fun x hx y hy => by simp only [List.mem_singleton] at hy; subst hy; rintro rfl; exact h4 hx⟩
  | command as =>
    have hs : singles (pre ++ [.command as]) = singles pre := by rw [singles_append]; simp [singles]
    have hf : files (pre ++ [.command as]) = files pre := by rw [files, hs]; rfl
    have hcm : commands (pre ++ [.command as]) = commands pre ++ [as] := by rw [commands_append]; rfl
    have : complaint canOpen pre (.command as) = none ↔ commands pre = [] := by simp [complaint]
    rw [this]
    constructor
    · intro h
      have := h.command
      rw [hcm] at this
      simpa using this
    · intro h
      exact ⟨hp, by rw [hs]; exact hg.options, by rw [hf]; exact hg.opened, by rw [hf]; exact hg.distinct, by rw [hcm, h]; simp⟩
  | openCommand as =>
    have hs : singles (pre ++ [.openCommand as]) = singles pre := by rw [singles_append]; simp [singles]
    have hf : files (pre ++ [.openCommand as]) = files pre := by rw [files, hs]; rfl
    have hcm : commands (pre ++ [.openCommand as]) = commands pre ++ [as] := by rw [commands_append]; rfl
    have : complaint canOpen pre (.openCommand as) = none ↔ commands pre = [] := by simp [complaint]
    rw [this]
    constructor
    · intro h
      have := h.command
      rw [hcm] at this
      simpa using this
    · intro h
      exact ⟨hp, by rw [hs]; exact hg.options, by rw [hf]; exact hg.opened, by rw [hf]; exact hg.distinct, by rw [hcm, h]; simp⟩
  | text as =>
    have hs : singles (pre ++ [.text as]) = singles pre := by rw [singles_append]; simp [singles]
    have hf : files (pre ++ [.text as]) = files pre := by rw [files, hs]; rfl
    have hcm : commands (pre ++ [.text as]) = commands pre := by rw [commands_append]; simp [commands]
    simp only [complaint]
    exact ⟨fun _ => trivial, fun _ => ⟨hp, by rw [hs]; exact hg.options, by rw [hf]; exact hg.opened, by rw [hf]; exact hg.distinct, by rw [hcm]; exact hg.command⟩⟩

theorem good_nil (canOpen : Bytes → Bool) : Good canOpen [] := ⟨trivial, by simp [singles], by simp [files, singles], by simp [files, singles], by simp [commands]⟩

/-- The whole line: it is good and is read as meant, or the first word with a complaint decides. -/
theorem read_line (canOpen : Bytes → Bool) : ∀ (ws pre : List Word), Closed pre → Good canOpen pre → Proper ws →
    (Good canOpen (pre ++ ws) ∧ ∃ l, readArgs canOpen (betweenWords pre) (ws.flatMap Word.args) = .go l ∧ l.set = meaning (pre ++ ws)) ∨
    (¬ Good canOpen (pre ++ ws) ∧ ∃ u w v o, ws = u ++ w :: v ∧ Good canOpen (pre ++ u) ∧ complaint canOpen (pre ++ u) w = some o ∧
      readArgs canOpen (betweenWords pre) (ws.flatMap Word.args) = failed o)
  | [], pre, hc, hg, _ => .inl ⟨by rw [List.append_nil]; exact hg, betweenWords pre, rfl, by rw [List.append_nil]; rfl⟩
  | w :: ws, pre, hc, hg, hp => by
    have hw : Proper [w] ∧ (Closed [w] ∧ Proper ws ∨ ¬ Closed [w] ∧ ws = []) := by
      cases w with
      | single a => exact ⟨⟨hp.1, hp.2.1, trivial⟩, .inl ⟨by intro x hx; simp at hx; subst hx; trivial, hp.2.2⟩⟩
      | command as => exact ⟨⟨hp.1, trivial⟩, .inl ⟨by intro x hx; simp at hx; subst hx; trivial, hp.2⟩⟩
      | openCommand as => exact ⟨⟨hp.1, rfl⟩, .inr ⟨fun h => h (.openCommand as) (by simp), hp.2⟩⟩
      | text as => exact ⟨rfl, .inr ⟨fun h => h (.text as) (by simp), hp⟩⟩
    have hr := read_word canOpen pre hc w hw.1 (ws.flatMap Word.args) (hw.2.elim (fun h => .inl h.1) (fun h => .inr (by rw [h.2]; rfl)))
    rw [List.flatMap_cons]
    cases hcm : complaint canOpen pre w with
    | some o =>
      right
      refine ⟨fun h => ?_, [], w, ws, o, rfl, by rw [List.append_nil]; exact hg, by rw [List.append_nil]; exact hcm, hr.1 o hcm⟩
      -- the line up to the word would be good
      have : Good canOpen (pre ++ [w]) := by
        rcases hw.2 with ⟨h1, _⟩ | ⟨_, h1⟩
        · exact Good.prefix (v := ws) (closed_append hc h1) (by rw [List.append_assoc]; exact h)
        · subst h1; exact h
      rw [(good_snoc hc hg hw.1).mp this] at hcm
      cases hcm
    | none =>
      have hg' : Good canOpen (pre ++ [w]) := (good_snoc hc hg hw.1).mpr hcm
      rcases hw.2 with ⟨h1, h2⟩ | ⟨h1, h2⟩
      · have := read_line canOpen ws (pre ++ [w]) (closed_append hc h1) hg' h2
        rw [(hr.2 hcm).1 h1]
        simp only [List.append_assoc, List.cons_append, List.nil_append] at this
        rcases this with h | ⟨h3, u, w', v, o, h4, h5, h6, h7⟩
        · exact .inl h
        · exact .inr ⟨h3, w :: u, w', v, o, by rw [h4]; rfl, h5, h6, h7⟩
      · subst h2
        obtain ⟨l, g1, g2⟩ := (hr.2 hcm).2 h1
        exact .inl ⟨hg', l, by rw [List.flatMap_nil, List.append_nil]; exact g1, g2⟩

/-- A closed good line, read. -/
theorem read_closed (canOpen : Bytes → Bool) (ws : List Word) (hc : Closed ws) (hg : Good canOpen ws) :
    readArgs canOpen initial (ws.flatMap Word.args) = .go (betweenWords ws) := by
  have key : ∀ (v u : List Word), Closed (u ++ v) → Good canOpen (u ++ v) → readArgs canOpen (betweenWords u) (v.flatMap Word.args) = .go (betweenWords (u ++ v)) := by
    intro v
    induction v with
    | nil => intro u _ _; rw [List.append_nil]; rfl
    | cons w v ih =>
      intro u h1 h2
      have hu : Closed u := fun x hx => h1 x (by simp [hx])
      have hw : Closed [w] := fun x hx => h1 x (by simp at hx; simp [hx])
      have hg1 : Good canOpen (u ++ [w]) := Good.prefix (v := v) (closed_append hu hw) (by rw [List.append_assoc]; exact h2)
      have hgu : Good canOpen u := Good.prefix hu h2
      have hpw : Proper [w] := ((proper_append hu).mp hg1.proper).2
      have := ((read_word canOpen u hu w hpw (v.flatMap Word.args) (.inl hw)).2 ((good_snoc hu hgu hpw).mp hg1)).1 hw
      rw [List.flatMap_cons, this]
      rw [ih (u ++ [w]) (by rw [List.append_assoc]; exact h1) (by rw [List.append_assoc]; exact h2), List.append_assoc]
      rfl
  exact key ws [] hc hg

theorem first_split {α : Type} [DecidableEq α] {a : α} : ∀ {l : List α}, a ∈ l → ∃ u v, l = u ++ a :: v ∧ a ∉ u
  | b :: l, h => by
    by_cases hb : b = a
    · exact ⟨[], l, by rw [hb]; rfl, by simp⟩
    · obtain ⟨u, v, h1, h2⟩ := first_split (l := l) (by simpa [Ne.symm hb] using h)
      exact ⟨b :: u, v, by rw [h1]; rfl, by simp [Ne.symm hb, h2]⟩

/-- Every list of arguments is a sequence of words. -/
theorem words_exist (args : List Bytes) : ∃ ws, Proper ws ∧ ws.flatMap Word.args = args := by
  have : ∀ n (args : List Bytes), args.length ≤ n → ∃ ws, Proper ws ∧ ws.flatMap Word.args = args := by
    intro n
    induction n with
    | zero => intro args h; exact ⟨[], trivial, by simp at h; rw [h]; rfl⟩
    | succ n ih =>
      intro args h
      cases args with
      | nil => exact ⟨[], trivial, rfl⟩
      | cons a as =>
        simp only [List.length_cons] at h
        by_cases h1 : a = b!"--"
        · exact ⟨[.text as], rfl, by simp [Word.args, h1]⟩
        · by_cases h2 : a = b!"--diff-cmd"
          · by_cases h3 : b!";" ∈ as
            · obtain ⟨u, v, rfl, h4⟩ := first_split h3
              obtain ⟨ws, h5, h6⟩ := ih v (by simp at h; omega)
              exact ⟨.command u :: ws, ⟨h4, h5⟩, by simp [Word.args, h2, h6]⟩
            · exact ⟨[.openCommand as], ⟨h3, rfl⟩, by simp [Word.args, h2]⟩
          · obtain ⟨ws, h5, h6⟩ := ih as (by omega)
            exact ⟨.single a :: ws, ⟨h1, h2, h5⟩, by simp [Word.args, h6]⟩
  exact this _ args (Nat.le_refl _)

/-- `read()` on a sequence of words. -/
theorem read_words (canOpen : Bytes → Bool) (ws : List Word) (hp : Proper ws) :
    (Good canOpen ws ∧ Params.read canOpen (ws.flatMap Word.args) =
      if b!"--diff" ∈ singles ws then
        if (inputsOf ws).length > 3 then .stop .tooMany else if (inputsOf ws).length < 2 then .stop .notEnough else .go (meaning ws)
      else .go (meaning ws)) ∨
    (¬ Good canOpen ws ∧ ∃ u w v o, ws = u ++ w :: v ∧ Good canOpen u ∧ complaint canOpen u w = some o ∧ (∀ s, o ≠ .go s) ∧
      Params.read canOpen (ws.flatMap Word.args) = o) := by
  rcases read_line canOpen ws [] (by intro w hw; cases hw) (good_nil canOpen) hp with ⟨h1, l, h2, h3⟩ | ⟨h1, u, w, v, o, h2, h3, h4, h5⟩
  · left
    refine ⟨h1, ?_⟩
    rw [show betweenWords [] = initial from rfl] at h2
    rw [Params.read, h2]
    simp only [h3, List.nil_append]
    have : (meaning ws).diffMode = decide (b!"--diff" ∈ singles ws) := rfl
    rw [this]
    simp only [decide_eq_true_eq]
    rfl
  · right
    have hno : ∀ s, o ≠ .go s := by
      intro s ho
      subst ho
      cases w with
      | single a =>
        simp only [complaint] at h4
        repeat' split at h4
        all_goals cases h4
      | command as => simp only [complaint] at h4; split at h4 <;> cases h4
      | openCommand as => simp only [complaint] at h4; split at h4 <;> cases h4
      | text as => simp [complaint] at h4
    refine ⟨h1, u, w, v, o, h2, h3, h4, hno, ?_⟩
    rw [show betweenWords [] = initial from rfl] at h5
    rw [Params.read, h5]
    cases o with
    | go s => exact absurd rfl (hno s)
    | stop s => rfl
    | throw e => rfl

theorem read_go {canOpen : Bytes → Bool} {ws : List Word} {s : Settings} (hp : Proper ws) (h : Params.read canOpen (ws.flatMap Word.args) = .go s) :
    Good canOpen ws ∧ s = meaning ws := by
  rcases read_words canOpen ws hp with ⟨h1, h2⟩ | ⟨h1, u, w, v, o, h2, h3, h4, h5, h6⟩
  · refine ⟨h1, ?_⟩
    rw [h2] at h
    split at h
    · split at h
      · cases h
      · split at h
        · cases h
        · cases h; rfl
    · cases h; rfl
  · rw [h] at h6
    exact absurd h6.symm (h5 s)

/-- **C46 is false as stated**: the order of the options about colours matters (the last one counts), and an unknown option after `--help` is no error. -/
theorem C46_options_false (canOpen : Bytes → Bool) :
    (∃ s, Params.read canOpen [b!"--color=never", b!"--color"] = .go s ∧ s.colorMode = true) ∧
    (∃ s, Params.read canOpen [b!"--color", b!"--color=never"] = .go s ∧ s.colorMode = false) ∧
    Params.read canOpen [b!"--help", b!"--nonsense"] = .stop .usage ∧
    Params.read canOpen [b!"--nonsense", b!"--help"] = .throw (.argument b!"--nonsense") :=
  ⟨⟨_, rfl, rfl⟩, ⟨_, rfl, rfl⟩, rfl, rfl⟩

/-- **C46, the part that holds.** Every command line is a sequence of words. If it is accepted, its options are all known, and each setting is as
its option says, wherever the option stands: it depends only on which single arguments there are, except for the colours, where the last
option counts. An unknown option (or a wrong argument of `--color=`) is an error, if nothing before it is wrong or asks for help or for
the version. Missing: the order of the options about colours; errors after `--help` and `--version`. -/
theorem C46_options_partial (canOpen : Bytes → Bool) (args : List Bytes) :
    (∃ ws, Proper ws ∧ ws.flatMap Word.args = args) ∧ ∀ ws, Proper ws → ws.flatMap Word.args = args →
      (∀ s, Params.read canOpen args = .go s →
        (∀ a ∈ singles ws, a ∈ flags ∨ b!"-".isPrefixOf a = false) ∧
        (s.strict = true ↔ b!"-W" ∉ singles ws) ∧
        (s.ignoreUnicode = true ↔ b!"--ascii" ∈ singles ws) ∧
        (s.diffMode = true ↔ b!"--diff" ∈ singles ws) ∧
        (s.compressMode = true ↔ b!"--compress" ∈ singles ws) ∧
        (s.sorted = true ↔ b!"--keep-order" ∉ singles ws) ∧
        s.colorMode = (colours ws).getLast?.getD true) ∧
      (Good canOpen ws → b!"--diff" ∉ singles ws → ∃ s, Params.read canOpen args = .go s) ∧
      (∀ u a v, ws = u ++ .single a :: v → Good canOpen u → a ∉ flags → b!"-".isPrefixOf a = true →
        a ≠ b!"--help" → a ≠ b!"-h" → a ≠ b!"--version" → a ≠ b!"-v" → ∃ e, Params.read canOpen args = .throw e) := by
  refine ⟨words_exist args, ?_⟩
  rintro ws hp rfl
  refine ⟨fun s hs => ?_, fun hg hd => ?_, ?_⟩
  · obtain ⟨hg, rfl⟩ := read_go hp hs
    exact ⟨hg.options, by simp [meaning], by simp [meaning], by simp [meaning], by simp [meaning], by simp [meaning], rfl⟩
  · rcases read_words canOpen ws hp with ⟨_, h2⟩ | ⟨h1, _⟩
    · rw [if_neg hd] at h2; exact ⟨_, h2⟩
    · exact absurd hg h1
  · intro u a v hws hu hf hdash n1 n2 n3 n4
    subst hws
    have hc := proper_before hp
    have hpa := ((proper_append hc).mp hp).2
    have hr := (read_word canOpen u hc (.single a) ⟨hpa.1, hpa.2.1, trivial⟩ (v.flatMap Word.args)
      (.inl (by intro x hx; simp at hx; subst hx; trivial))).1
    have hu' := read_closed canOpen u hc hu
    have hcm : ∃ e, complaint canOpen u (.single a) = some (.throw e) := by
      simp only [complaint, if_neg hf]
      rw [if_neg (by rintro (h | h); exact n1 h; exact n2 h), if_neg (by rintro (h | h); exact n3 h; exact n4 h)]
      split
      · exact ⟨_, rfl⟩
      · exact ⟨_, rfl⟩
    obtain ⟨e, he⟩ := hcm
    refine ⟨e, ?_⟩
    have := hr _ he
    rw [Params.read, List.flatMap_append, readArgs_append, hu']
    simp only [List.flatMap_cons]
    rw [this]
    rfl

/-- A command line to which the theorem applies. -/
example : ∃ s, Params.read (fun _ => true) [b!"-W", b!"a.json", b!"--diff-cmd", b!"vimdiff", b!"{}", b!";", b!"--ascii", b!"b.json", b!"--", b!"[1,", b!"2]"] = .go s ∧
    s.strict = false ∧ s.ignoreUnicode = true ∧ s.diffCmd = some [b!"vimdiff", b!"{}"] ∧ s.argsText = b!"[1, 2]" ∧
    getInputs s = [(b!"a.json", .file b!"a.json"), (b!"b.json", .file b!"b.json"), (b!"ARGS", .text)] := by
  refine ⟨_, rfl, rfl, rfl, rfl, rfl, rfl⟩

/-- The setting that the number of inputs allows: `--diff` demands two or three. -/
theorem read_good {canOpen : Bytes → Bool} {ws : List Word} (hg : Good canOpen ws) :
    Params.read canOpen (ws.flatMap Word.args) =
      if b!"--diff" ∈ singles ws then
        if (inputsOf ws).length > 3 then .stop .tooMany else if (inputsOf ws).length < 2 then .stop .notEnough else .go (meaning ws)
      else .go (meaning ws) := by
  rcases read_words canOpen ws hg.proper with ⟨_, h2⟩ | ⟨h1, _⟩
  · exact h2
  · exact absurd hg h1

/-- **C47.** After words that are neither a text nor an unfinished command, for every list of arguments after `--`: if the command line is accepted, there is exactly
one input named `ARGS`, it is the text, the text is those arguments joined by single blanks, and any other arguments after `--` give the same settings
and inputs, with their own text. -/
theorem C47_text (canOpen : Bytes → Bool) (u : List Word) (hu : Proper u) (hc : Closed u) (as : List Bytes) (s : Settings)
    (h : Params.read canOpen (u.flatMap Word.args ++ b!"--" :: as) = .go s) :
    s.argsText = joined as ∧ (getInputs s).filter (fun i => i.1 = b!"ARGS") = [(b!"ARGS", .text)] ∧
    ∀ as', Params.read canOpen (u.flatMap Word.args ++ b!"--" :: as') = .go { s with argsText := joined as' } := by
  have hflat : ∀ as', u.flatMap Word.args ++ b!"--" :: as' = (u ++ [Word.text as']).flatMap Word.args := by intro as'; simp [Word.args]
  have hp : ∀ as', Proper (u ++ [.text as']) := fun as' => (proper_append hc).mpr ⟨hu, rfl⟩
  have ht := closed_texts hc
  have ht' : ∀ as', texts (u ++ [.text as']) = [as'] := by intro as'; rw [texts_append, ht]; rfl
  have hcm : ∀ as', commands (u ++ [.text as']) = commands u := by intro as'; rw [commands_append]; simp [commands]
  have hs : ∀ as', singles (u ++ [.text as']) = singles u := by intro as'; rw [singles_append]; simp [singles]
  have hf : ∀ as', files (u ++ [.text as']) = files u := by intro as'; rw [files, hs]; rfl
  have hcol : ∀ as', colours (u ++ [.text as']) = colours u := by intro as'; rw [colours, hs]; rfl
  have hin : ∀ as', inputsOf (u ++ [.text as']) = FifoMap.assign ((files u).map fun f => (f, .file f)) b!"ARGS" .text := by
    intro as'; simp [inputsOf, ht', hf]
  have h0 := h
  rw [hflat] at h
  obtain ⟨hg, rfl⟩ := read_go (hp as) h
  have hg' : ∀ as', Good canOpen (u ++ [.text as']) := fun as' =>
    ⟨hp as', by rw [hs]; have := hg.options; rwa [hs] at this, by rw [hf]; have := hg.opened; rwa [hf] at this,
      by rw [hf]; have := hg.distinct; rwa [hf] at this, by rw [hcm]; have := hg.command; rwa [hcm] at this⟩
  refine ⟨by simp [meaning, ht'], ?_, fun as' => ?_⟩
  · have hd := hg.distinct
    rw [hf] at hd
    have hne : inputsOf (u ++ [.text as]) ≠ [] := by
      rw [hin]
      intro h1
      have := congrArg (List.map (·.1)) h1
      rw [assign_keys] at this
      split at this
      · next h2 => rw [this] at h2; cases h2
      · simp at this
    rw [getInputs, show (meaning (u ++ [.text as])).inputs = inputsOf (u ++ [.text as]) from rfl, if_pos hne, hin]
    generalize files u = fs at hd
    clear hin hf hs hcm hcol ht' hg' hflat h0 hp hne h hg
    induction fs with
    | nil => rfl
    | cons f fs ih =>
      rw [List.map_cons, FifoMap.assign]
      split
      · next h1 =>
        simp only at h1
        subst h1
        rw [List.filter_cons_of_pos (by simp)]
        congr 1
        rw [List.filter_eq_nil_iff]
        intro x hx
        obtain ⟨g, hg, rfl⟩ := List.mem_map.mp hx
        have := (List.nodup_cons.mp hd).1
        simp only [decide_eq_true_eq]
        rintro rfl
        exact this hg
      · next h1 =>
        rw [List.filter_cons_of_neg (by simpa using h1)]
        exact ih (List.nodup_cons.mp hd).2
  · rw [hflat] at h0 ⊢
    rw [read_good (hg' as)] at h0
    rw [read_good (hg' as')]
    have e1 : ({ meaning (u ++ [.text as]) with argsText := joined as' } : Settings) = meaning (u ++ [.text as']) := by
      simp [meaning, hs, hcol, hcm, hin, ht']
    rw [hs, hin] at h0 ⊢
    rw [e1]
    split
    · next h1 =>
      rw [if_pos h1] at h0
      split
      · next h2 => rw [if_pos h2] at h0; cases h0
      · next h2 =>
        rw [if_neg h2] at h0
        split
        · next h3 => rw [if_pos h3] at h0; cases h0
        · rfl
    · rfl

/-- **C48.** For all words without a command before and after it: if the command line with `--diff-cmd as… ;` in betweenWords is accepted, the command is exactly `as`, and
without these arguments the command line is read in the same way, without a command; without `;` the command extends to the end; and a second
`--diff-cmd` (after words with nothing wrong) is an error. -/
theorem C48_command (canOpen : Bytes → Bool) (u : List Word) (hu : Proper u) (hc : Closed u) (as : List Bytes) (has : b!";" ∉ as) :
    (commands u = [] →
      (∀ v, Proper v → commands v = [] → ∀ s, Params.read canOpen (u.flatMap Word.args ++ b!"--diff-cmd" :: as ++ b!";" :: v.flatMap Word.args) = .go s →
        s.diffCmd = some as ∧ Params.read canOpen (u.flatMap Word.args ++ v.flatMap Word.args) = .go { s with diffCmd := none }) ∧
      (∀ s, Params.read canOpen (u.flatMap Word.args ++ b!"--diff-cmd" :: as) = .go s →
        s.diffCmd = some as ∧ Params.read canOpen (u.flatMap Word.args) = .go { s with diffCmd := none })) ∧
    (Good canOpen u → commands u ≠ [] → ∀ rest, Params.read canOpen (u.flatMap Word.args ++ b!"--diff-cmd" :: rest) = .throw .doubleDiffCmd) := by
  -- one word more or less
  have key : ∀ (w : Word) (v : List Word), Proper (u ++ w :: v) → Proper (u ++ v) → singles [w] = [] → texts [w] = [] → commands [w] = [as] → commands u = [] →
      commands v = [] → ∀ s, Params.read canOpen ((u ++ w :: v).flatMap Word.args) = .go s →
        s.diffCmd = some as ∧ Params.read canOpen ((u ++ v).flatMap Word.args) = .go { s with diffCmd := none } := by
    intro w v hp hp2 h1 h2 h3 h4 h5 s h
    have es : singles (u ++ w :: v) = singles (u ++ v) := by
      rw [show u ++ w :: v = u ++ ([w] ++ v) from rfl, singles_append, singles_append, singles_append, h1]; rfl
    have et : texts (u ++ w :: v) = texts (u ++ v) := by
      rw [show u ++ w :: v = u ++ ([w] ++ v) from rfl, texts_append, texts_append, texts_append, h2]; rfl
    have ec : commands (u ++ w :: v) = [as] := by
      rw [show u ++ w :: v = u ++ ([w] ++ v) from rfl, commands_append, commands_append, h3, h4, h5]; rfl
    have ec' : commands (u ++ v) = [] := by rw [commands_append, h4, h5]; rfl
    have ef : files (u ++ w :: v) = files (u ++ v) := by rw [files, es]; rfl
    have eco : colours (u ++ w :: v) = colours (u ++ v) := by rw [colours, es]; rfl
    have ei : inputsOf (u ++ w :: v) = inputsOf (u ++ v) := by simp only [inputsOf, et, ef]
    obtain ⟨hg, rfl⟩ := read_go hp h
    have hg' : Good canOpen (u ++ v) := ⟨hp2, by rw [← es]; exact hg.options, by rw [← ef]; exact hg.opened, by rw [← ef]; exact hg.distinct, by rw [ec']; simp⟩
    refine ⟨by simp [meaning, ec], ?_⟩
    rw [read_good hg, es, ei] at h
    rw [read_good hg']
    have e1 : ({ meaning (u ++ w :: v) with diffCmd := none } : Settings) = meaning (u ++ v) := by
      simp [meaning, es, eco, ei, et, ec']
    rw [e1]
    split
    · next h1 =>
      rw [if_pos h1] at h
      split
      · next h2 => rw [if_pos h2] at h; cases h
      · next h2 =>
        rw [if_neg h2] at h
        split
        · next h3 => rw [if_pos h3] at h; cases h
        · rfl
    · rfl
  refine ⟨fun hcu => ⟨fun v hv hcv s h => ?_, fun s h => ?_⟩, fun hg hne rest => ?_⟩
  · have := key (.command as) v ((proper_append hc).mpr ⟨hu, has, hv⟩) ((proper_append hc).mpr ⟨hu, hv⟩) rfl rfl rfl hcu hcv s
      (by rw [← h]; simp [Word.args])
    rwa [List.flatMap_append] at this
  · have := key (.openCommand as) [] ((proper_append hc).mpr ⟨hu, has, rfl⟩) (by rw [List.append_nil]; exact hu) rfl rfl rfl hcu rfl s
      (by rw [← h]; simp [Word.args])
    rwa [List.append_nil] at this
  · rw [Params.read, readArgs_append, read_closed canOpen u hc hg]
    simp only [readArgs]
    rw [read_cmd_word _ _ ⟨rfl, rfl⟩, if_pos]
    simp only [betweenWords, meaning]
    cases h : commands u with
    | nil => exact absurd h hne
    | cons c cs => rfl

/-- **C49 is false as stated**: a file named `ARGS` is not read when there is a text. -/
theorem C49_inputs_false : ∃ s, Params.read (fun _ => true) [b!"ARGS", b!"--", b!"1"] = .go s ∧ getInputs s = [(b!"ARGS", .text)] := ⟨_, rfl, rfl⟩

/-- **C49, the part that holds.** For every command line that is accepted, unless it names a file `ARGS` and gives a text: the inputs are the files
in the order of the command line, then the text if there is one, and standard input if there is neither; their names are distinct; with
`--diff` there are two or three. A file named twice is an error, if it can be opened and nothing before it is wrong. A command line with nothing
wrong is refused only when `--diff` is given and there are less than two or more than three inputs. -/
theorem C49_inputs_partial (canOpen : Bytes → Bool) (ws : List Word) (hp : Proper ws) :
    (∀ s, Params.read canOpen (ws.flatMap Word.args) = .go s → (b!"ARGS" ∉ files ws ∨ texts ws = []) →
      let named := (files ws).map (fun f => (f, Source.file f)) ++ (texts ws).map fun _ => (b!"ARGS", Source.text)
      getInputs s = (if named = [] then [(b!"STDIN", .stdin)] else named) ∧ ((getInputs s).map (·.1)).Nodup ∧ (∀ f ∈ files ws, canOpen f = true) ∧
      (b!"--diff" ∈ singles ws → 2 ≤ named.length ∧ named.length ≤ 3)) ∧
    (∀ u a v, ws = u ++ .single a :: v → Good canOpen u → a ∈ files u → canOpen a = true → Params.read canOpen (ws.flatMap Word.args) = .throw (.identical a)) ∧
    (Good canOpen ws → (∀ s, Params.read canOpen (ws.flatMap Word.args) ≠ .go s) →
      b!"--diff" ∈ singles ws ∧ ((files ws).length + (texts ws).length < 2 ∨ 3 < (files ws).length + (texts ws).length ∨ b!"ARGS" ∈ files ws ∧ texts ws ≠ [])) := by
  have hone : (texts ws).length ≤ 1 := by
    clear canOpen
    induction ws with
    | nil => simp [texts]
    | cons w ws ih =>
      cases w with
      | single a => exact ih hp.2.2
      | command as => exact ih hp.2
      | openCommand as => have : ws = [] := hp.2; subst this; simp [texts]
      | text as => have : ws = [] := hp; subst this; simp [texts]
  have hin : (b!"ARGS" ∉ files ws ∨ texts ws = []) → inputsOf ws = (files ws).map (fun f => (f, Source.file f)) ++ (texts ws).map fun _ => (b!"ARGS", Source.text) := by
    intro h
    cases ht : texts ws with
    | nil => simp [inputsOf, ht]
    | cons t ts =>
      rw [ht] at hone h
      have : ts = [] := by simpa using hone
      subst this
      have hA : b!"ARGS" ∉ files ws := h.resolve_right (by simp)
      rw [inputsOf, ht, if_neg (by simp), assign_new _ _ _ (by rw [map_files]; exact hA)]
      rfl
  refine ⟨fun s h hA => ?_, ?_, fun hg hno => ?_⟩
  · obtain ⟨hg, rfl⟩ := read_go hp h
    have hgi : getInputs (meaning ws) = if inputsOf ws = [] then [(b!"STDIN", .stdin)] else inputsOf ws := by
      unfold getInputs
      rw [show (meaning ws).inputs = inputsOf ws from rfl]
      by_cases h : inputsOf ws = [] <;> simp [h]
    rw [read_good hg] at h
    rw [hgi]
    have hkeys : ((inputsOf ws).map (·.1)).Nodup := by
      unfold inputsOf
      split
      · rw [map_files]; exact hg.distinct
      · rw [assign_keys, map_files]
        split
        · exact hg.distinct
        · next hn =>
          rw [List.nodup_append]
          exact ⟨hg.distinct, by simp, fun x hx y hy => by simp only [List.mem_singleton] at hy; subst hy; rintro rfl; exact hn hx⟩
    simp only [← hin hA]
    refine ⟨trivial, ?_, hg.opened, fun hd => ?_⟩
    · split
      · simp
      · exact hkeys
    · rw [if_pos hd] at h
      split at h
      · cases h
      · split at h
        · cases h
        · omega
  · intro u a v hws hu ha ho
    subst hws
    have hc := proper_before hp
    have hpa := ((proper_append hc).mp hp).2
    have hr := (read_word canOpen u hc (.single a) ⟨hpa.1, hpa.2.1, trivial⟩ (v.flatMap Word.args)
      (.inl (by intro x hx; simp at hx; subst hx; trivial))).1
    have h2 : b!"-".isPrefixOf a = false := by
      have := (List.mem_filter.mp ha).2
      simpa only [Bool.not_eq_true'] using this
    have hne : ∀ x, b!"-".isPrefixOf x = true → a ≠ x := by
      intro x hx h; subst h; rw [h2] at hx; cases hx
    have hcp : b!"--color=".isPrefixOf a = false := by
      cases a with
      | nil => rfl
      | cons b a =>
        simp only [List.isPrefixOf, Bool.and_eq_false_iff] at h2 ⊢
        rcases h2 with h | h
        · exact .inl h
        · cases h
    have hnf : a ∉ flags := by
      intro h1
      simp only [flags, List.mem_cons, List.not_mem_nil, or_false] at h1
      rcases h1 with rfl | rfl | rfl | rfl | rfl | rfl | rfl | rfl <;> cases h2
    have := hr (.throw (.identical a)) (by
      simp only [complaint, if_neg hnf]
      rw [if_neg (by rintro (h | h); exact hne _ (by decide) h; exact hne _ (by decide) h),
        if_neg (by rintro (h | h); exact hne _ (by decide) h; exact hne _ (by decide) h), if_neg (by rw [hcp]; decide), if_neg (by rw [h2]; decide),
        if_neg (by rw [ho]; decide), if_pos ha])
    rw [Params.read, List.flatMap_append, readArgs_append, read_closed canOpen u hc hu]
    simp only [List.flatMap_cons]
    rw [this]
    rfl
  · have h := read_good hg
    by_cases hd : b!"--diff" ∈ singles ws
    · refine ⟨hd, ?_⟩
      rw [if_pos hd] at h
      by_cases hA : b!"ARGS" ∉ files ws ∨ texts ws = []
      · rw [hin hA] at h
        simp only [List.length_append, List.length_map] at h
        split at h
        · next h1 => exact .inr (.inl h1)
        · split at h
          · next h1 => exact .inl h1
          · exact absurd h (hno _)
      · exact .inr (.inr ⟨Classical.byContradiction fun h1 => hA (.inl h1), fun h1 => hA (.inr h1)⟩)
    · rw [if_neg hd] at h
      exact absurd h (hno _)

/-! ### The hypotheses are met -/

/-- A command line for the examples. -/
def exampleWords : List Word := [.single b!"-W", .single b!"a.json"]

theorem exampleWords_good : Good (fun _ => true) exampleWords where
  proper := by simp only [exampleWords, Proper]; decide
  options := by decide
  opened := by decide
  distinct := by decide
  command := by decide

theorem exampleWords_closed : Closed exampleWords := by
  intro w hw
  simp only [exampleWords, List.mem_cons, List.not_mem_nil, or_false] at hw
  rcases hw with rfl | rfl <;> trivial

example : ∃ s, Params.read (fun _ => true) (exampleWords.flatMap Word.args ++ b!"--" :: [b!"[1,", b!"2]"]) = .go s ∧ s.argsText = b!"[1, 2]" :=
  ⟨_, rfl, rfl⟩

example : commands exampleWords = [] ∧ b!";" ∉ [b!"vimdiff", b!"{}"] ∧
    ∃ s, Params.read (fun _ => true) (exampleWords.flatMap Word.args ++ b!"--diff-cmd" :: [b!"vimdiff", b!"{}"] ++ b!";" :: [b!"b.json"]) = .go s ∧
      s.diffCmd = some [b!"vimdiff", b!"{}"] := ⟨rfl, by decide, _, rfl, rfl⟩

/-- A file named twice. -/
example : Params.read (fun _ => true) ((exampleWords ++ Word.single b!"a.json" :: []).flatMap Word.args) = .throw (.identical b!"a.json") :=
  (C49_inputs_partial _ _ (by simp only [exampleWords, List.cons_append, List.nil_append, Proper]; decide)).2.1 _ _ _ rfl exampleWords_good (by decide) rfl

end Verif.Props
