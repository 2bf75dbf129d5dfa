import Verif.Lemmas.Window
/-! # The line of the selection -/
namespace Verif.Lemmas
open Verif.Model Verif.Model.Search Verif.Model.Tui Verif.Spec

/-- Lines belong to items looked at before (or to one in `S`). -/
def Owned : List Path → List Ev → Prop
  | _, [] => True
  | S, .check p false :: es => Owned (p :: S) es
  | S, .check _ true :: es => Owned S es
  | S, .line _ item _ _ _ _ :: es => item ∈ S ∧ Owned S es

theorem Owned.mono {S T : List Path} (h : ∀ p ∈ S, p ∈ T) {es : List Ev} (ho : Owned S es) : Owned T es := by
  induction es generalizing S T with
  | nil => trivial
  | cons e es ih =>
    cases e with
    | check p ie =>
      cases ie with
      | false => exact ih (S := p :: S) (T := p :: T) (by intro q hq; rcases List.mem_cons.mp hq with rfl | hq; simp; simp [h q hq]) ho
      | true => exact ih h ho
    | line => exact ⟨h _ ho.1, ih h ho.2⟩

theorem Owned.append {S : List Path} {a b : List Ev} (ha : Owned S a) (hb : Owned S b) : Owned S (a ++ b) := by
  induction a generalizing S with
  | nil => exact hb
  | cons e a ih =>
    cases e with
    | check p ie =>
      cases ie with
      | false => exact ih (S := p :: S) ha (hb.mono (by simp +contextual))
      | true => exact ih ha hb
    | line => exact ⟨ha.1, ih ha.2 hb⟩

theorem owned_prim (S : List Path) (p item : Path) (ie : Bool) (x : Nat) (t : Bytes) (n : Nat) (h : item ∈ S ∨ ie = false ∧ item = p) :
    Owned S [.check p ie, .line p item x t n false] := by
  cases ie with
  | true => exact ⟨by simpa using h, trivial⟩
  | false => exact ⟨by rcases h with h | ⟨-, rfl⟩ <;> simp [*], trivial⟩

mutual
theorem owned_value (env : Env) (w : Nat) (c : List Path) : ∀ (v : Json) (S : List Path) (p item : Path) (ie : Bool) (x : Nat),
    (item ∈ S ∨ ie = false ∧ item = p) → Owned S (evValue env w c p item ie x v)
  | .arr xs, S, p, item, ie, x, h => by
    have key : ∀ T, item ∈ T → Owned T (if c.contains p = true then [Ev.line p item x (collapsedText false) (getNbLines (7 + x) w) false]
        else .line p item x (openBracket false) (getNbLines (x + 1) w) false :: (evItems env w c p 0 (x + 4) xs ++
          [.line p item x (closeBracket false) (getNbLines (x + 1) w) false])) := by
      intro T hT
      split
      · exact ⟨hT, trivial⟩
      · exact ⟨hT, (owned_items env w c xs T p 0 (x + 4)).append ⟨hT, trivial⟩⟩
    rw [evValue]
    cases ie with
    | true => exact key S (by simpa using h)
    | false => exact key (p :: S) (by rcases h with h | ⟨-, rfl⟩ <;> simp [*])
  | .obj es, S, p, item, ie, x, h => by
    have key : ∀ T, item ∈ T → Owned T (if c.contains p = true then [Ev.line p item x (collapsedText true) (getNbLines (7 + x) w) false]
        else .line p item x (openBracket true) (getNbLines (x + 1) w) false :: (evEntries env w c p 0 (x + 4) es ++
          [.line p item x (closeBracket true) (getNbLines (x + 1) w) false])) := by
      intro T hT
      split
      · exact ⟨hT, trivial⟩
      · exact ⟨hT, (owned_entries env w c es T p 0 (x + 4)).append ⟨hT, trivial⟩⟩
    rw [evValue]
    cases ie with
    | true => exact key S (by simpa using h)
    | false => exact key (p :: S) (by rcases h with h | ⟨-, rfl⟩ <;> simp [*])
  | .str s, S, p, item, ie, x, h => owned_prim _ _ _ _ _ _ _ h
  | .bool s, S, p, item, ie, x, h => owned_prim _ _ _ _ _ _ _ h
  | .null, S, p, item, ie, x, h => owned_prim _ _ _ _ _ _ _ h
  | .int s, S, p, item, ie, x, h => owned_prim _ _ _ _ _ _ _ h
  | .long s, S, p, item, ie, x, h => owned_prim _ _ _ _ _ _ _ h
  | .dbl s, S, p, item, ie, x, h => owned_prim _ _ _ _ _ _ _ h
theorem owned_items (env : Env) (w : Nat) (c : List Path) : ∀ (vs : List Json) (S : List Path) (p : Path) (i x : Nat), Owned S (evItems env w c p i x vs)
  | [], S, p, i, x => trivial
  | v :: vs, S, p, i, x => (owned_value env w c v S _ _ false x (.inr ⟨rfl, rfl⟩)).append (owned_items env w c vs S p (i + 1) x)
theorem owned_entries (env : Env) (w : Nat) (c : List Path) : ∀ (es : List (Bytes × Json)) (S : List Path) (p : Path) (i x : Nat),
    Owned S (evEntries env w c p i x es)
  | [], S, p, i, x => trivial
  | (k, v) :: es, S, p, i, x => by
    rw [evEntries]
    refine Owned.append (S := (p ++ [i]) :: S) ?_ ((owned_entries env w c es S p (i + 1) x).mono (by simp +contextual))
    split
    · exact ⟨by simp, trivial⟩
    split
    · exact ⟨by simp, trivial⟩
    split
    · exact ⟨by simp, trivial⟩
    · exact ⟨by simp, owned_value env w c v _ _ _ true _ (.inl (by simp))⟩
end

/-- The item looked at first is drawn next. -/
def Paired (es : List Ev) : Prop := ∀ pre q post, es = pre ++ .check q false :: post → ∃ x t n lz post', post = .line q q x t n lz :: post'

theorem Paired.append {a b : List Ev} (ha : Paired a) (hb : Paired b) : Paired (a ++ b) := by
  intro pre q post h
  rcases List.append_eq_append_iff.mp h with ⟨c, h1, h2⟩ | ⟨c, h1, h2⟩
  · exact hb c q post h2
  · cases c with
    | nil =>
      simp at h2
      exact hb [] q post (by simp [h2])
    | cons e c =>
      simp at h2
      obtain ⟨rfl, rfl⟩ := h2
      obtain ⟨x, t, n, lz, post', h3⟩ := ha pre q c h1
      exact ⟨x, t, n, lz, post' ++ b, by rw [h3]; rfl⟩

theorem Paired.line {p item : Path} {x : Nat} {t : Bytes} {n : Nat} {lz : Bool} {es : List Ev} (h : Paired es) : Paired (.line p item x t n lz :: es) := by
  intro pre q post he
  cases pre with
  | nil => simp at he
  | cons e pre =>
    simp at he
    exact h pre q post he.2

theorem Paired.nil : Paired [] := by intro pre q post h; simp at h

theorem Paired.val {p : Path} {es : List Ev} (h : Paired es) : Paired (.check p true :: es) := by
  intro pre q post he
  cases pre with
  | nil => simp at he
  | cons e pre =>
    simp at he
    exact h pre q post he.2

theorem Paired.item {p : Path} {x : Nat} {t : Bytes} {n : Nat} {lz : Bool} {es : List Ev} (h : Paired es) :
    Paired (.check p false :: .line p p x t n lz :: es) := by
  intro pre q post he
  cases pre with
  | nil => simp at he; obtain ⟨rfl, rfl⟩ := he; exact ⟨x, t, n, lz, es, rfl⟩
  | cons e pre =>
    simp at he
    exact h.line pre q post he.2

theorem paired_check {p item : Path} {ie : Bool} (h : ie = false → item = p) {x : Nat} {t : Bytes} {n : Nat} {lz : Bool} {es : List Ev} (he : Paired es) :
    Paired (.check p ie :: .line p item x t n lz :: es) := by
  cases ie with
  | false => rw [h rfl]; exact he.item
  | true => exact he.line.val

mutual
theorem paired_value (env : Env) (w : Nat) (c : List Path) : ∀ (v : Json) (p item : Path) (ie : Bool) (x : Nat), (ie = false → item = p) →
    Paired (evValue env w c p item ie x v)
  | .arr xs, p, item, ie, x, h => by
    rw [evValue]
    split
    · exact paired_check h Paired.nil
    · exact paired_check h ((paired_items env w c xs p 0 (x + 4)).append Paired.nil.line)
  | .obj es, p, item, ie, x, h => by
    rw [evValue]
    split
    · exact paired_check h Paired.nil
    · exact paired_check h ((paired_entries env w c es p 0 (x + 4)).append Paired.nil.line)
  | .str s, p, item, ie, x, h => paired_check h Paired.nil
  | .bool s, p, item, ie, x, h => paired_check h Paired.nil
  | .null, p, item, ie, x, h => paired_check h Paired.nil
  | .int s, p, item, ie, x, h => paired_check h Paired.nil
  | .long s, p, item, ie, x, h => paired_check h Paired.nil
  | .dbl s, p, item, ie, x, h => paired_check h Paired.nil
theorem paired_items (env : Env) (w : Nat) (c : List Path) : ∀ (vs : List Json) (p : Path) (i x : Nat), Paired (evItems env w c p i x vs)
  | [], p, i, x => Paired.nil
  | v :: vs, p, i, x => (paired_value env w c v _ _ false x (fun _ => rfl)).append (paired_items env w c vs p (i + 1) x)
theorem paired_entries (env : Env) (w : Nat) (c : List Path) : ∀ (es : List (Bytes × Json)) (p : Path) (i x : Nat), Paired (evEntries env w c p i x es)
  | [], p, i, x => Paired.nil
  | (k, v) :: es, p, i, x => by
    rw [evEntries]
    have hr := paired_entries env w c es p (i + 1) x
    split
    · exact hr.item
    split
    · exact hr.item
    split
    · exact hr.item
    · exact ((paired_value env w c v _ _ true (x + 2) (by simp)).append hr).item
end

theorem exec_screen (view : View) (sel : Option Path) (es : List Ev) (d : Draw) : d.screen <+: (exec view sel es d).1.screen := by
  induction es generalizing d with
  | nil => exact List.prefix_refl _
  | cons e es ih =>
    have h1 : d.screen <+: (e.run view sel d).1.screen := by
      cases e with
      | check p ie =>
        simp only [Ev.run, checkSelection]
        split
        · split
          · exact List.prefix_refl _
          · split <;> exact List.prefix_refl _
        · split
          · split <;> exact List.prefix_refl _
          · exact List.prefix_refl _
      | line => simp only [Ev.run]; split <;> simp
    simp only [exec]
    rcases hr : e.run view sel d with ⟨d', b⟩
    rw [hr] at h1
    cases b with
    | true => exact h1.trans (ih d')
    | false => exact h1

theorem yrun_bound {h sc : Nat} (hh : 2 ≤ h) : ∀ (es : List Ev) (y y' : Nat), yrun h sc es y = some y' → y ≤ sc + (h - 1) → y' ≤ sc + (h - 1) := by
  intro es
  induction es with
  | nil => intro y y' hy; simp [yrun] at hy; omega
  | cons e es ih =>
    intro y y' hy hb
    cases e with
    | check p ie => exact ih y y' hy hb
    | line p item x t n lz =>
      rw [yrun] at hy
      split at hy
      · split at hy
        · exact ih _ _ hy (by omega)
        · simp at hy
      · split at hy
        · next hb2 =>
          simp only [hasReachedBottom, Bool.not_eq_true', Bool.and_eq_false_iff, decide_eq_false_iff_not] at hb2
          exact ih _ _ hy (by omega)
        · simp at hy

/-- Where the line of the selection is drawn. -/
theorem exec_selection (env : Env) (view : View) (q : Path) (hn : NoVal env (some q)) (pre post : List Ev) (p : Path) (x : Nat) (t : Bytes) (n : Nat) (lz : Bool)
    (hv : ValChecks env pre) (hq : q ∉ checks pre) (scroll y : Nat) (hy : yrun view.height scroll pre 1 = some y) :
    ⟨y - scrollTo scroll y, x, t, true, view.results.contains p⟩ ∈
      (exec view (some q) (pre ++ .check q false :: .line p q x t n lz :: post) (blank scroll)).1.screen := by
  have hs : ∀ p ∈ checks pre, some q ≠ some p := fun p hp h => by simp at h; exact hq (h ▸ hp)
  have hpre := exec_absent env view (some q) hn pre hv hs (blank scroll) rfl
  simp only at hpre
  rw [hy] at hpre
  simp only at hpre
  have hrun := exec_runAll view (some q) pre (blank scroll) hpre.1
  have hsc := scan_absent env view (some q) hn pre hv hs (blank scroll) rfl
  rw [← hrun] at hsc
  rw [exec_append]
  rcases he : exec view (some q) pre (blank scroll) with ⟨d1, b⟩
  rw [he] at hpre hsc
  obtain ⟨rfl, h2⟩ := hpre
  simp only at h2 hsc ⊢
  obtain ⟨g1, g2, -, -⟩ := hsc
  have hc : checkSelection (some q) q false d1 = { d1 with scroll := scrollTo scroll y, found := true } := by
    have hz : (if d1.y = 0 then 0 else d1.y - 1) = d1.y - 1 := by split <;> omega
    rw [← h2]
    simp only [checkSelection, g1, scrollTo, g2, hz]
    simp
  have hy1 : 1 ≤ y := yrun_mono _ _ _ _ _ hy
  have hle : ¬ y ≤ scrollTo scroll y := by unfold scrollTo; split <;> omega
  simp only [exec, Ev.run, hc, h2]
  rw [if_neg hle]
  simp only [decide_true]
  split
  · next heq =>
    simp only [Prod.mk.injEq] at heq
    obtain ⟨heq, -⟩ := heq
    exact (exec_screen view (some q) post _).subset (by rw [← heq]; simp)
  · next heq =>
    simp only [Prod.mk.injEq] at heq
    obtain ⟨heq, -⟩ := heq
    rw [← heq]; simp

/-- The first row of an item. -/
theorem match_first {w : Nat} {q p : Path} {x : Nat} {t : Bytes} {n : Nat} {lz : Bool} {post : List Ev} : ∀ (pre : List Ev) (S : List Path) (rs : List Row),
    Match w (pre ++ .check q false :: .line p q x t n lz :: post) rs → Owned S pre → q ∉ S → q ∉ checks pre →
    ∃ r, rs.find? (fun r => r.item = q) = some r ∧ r.elem = p ∧ r.col = x ∧ r.text = t := by
  intro pre
  induction pre with
  | nil =>
    intro S rs hm _ _ _
    obtain ⟨r, rs', rfl, h1, h2, h3, h4, -⟩ := hm
    exact ⟨r, by simp [h2], h1, h3, h4⟩
  | cons e pre ih =>
    intro S rs hm ho hq hc
    cases e with
    | check p' ie =>
      cases ie with
      | true => exact ih S rs hm ho hq hc
      | false =>
        simp only [checks, List.mem_cons, not_or] at hc
        exact ih (p' :: S) rs hm ho (by simp [hc.1, hq]) hc.2
    | line p' item x' t' n' lz' =>
      obtain ⟨r, rs', rfl, h1, h2, h3, h4, -, h5, h6⟩ := hm
      obtain ⟨r', g1, g2⟩ := ih S rs' h6 ho.2 hq hc
      refine ⟨r', ?_, g2⟩
      rw [List.find?_cons]
      have : decide (r.item = q) = false := by
        rw [h2]; simp; rintro rfl; exact hq ho.1
      rw [this]
      exact g1

end Verif.Lemmas
