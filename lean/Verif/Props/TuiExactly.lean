import Verif.Props.TuiMore
/-! # C63, C64, exactly -/
namespace Verif.Props
open Verif.Model Verif.Model.Search Verif.Model.Nav Verif.Model.Tui Verif.Spec Verif.Lemmas

/-- The next displayed item begins below the selection. -/
theorem line_below {env : Env} {s : St} {A B : List Path} {q b : Path} (h : Drawing env s A q (b :: B)) : lineOf env s q < lineOf env s b := by
  obtain ⟨s1, hk, hr, hs, hAB⟩ := h.drawn
  obtain ⟨pre, post, h1, h2, h3', h4⟩ := evs_split env s1 hAB
  obtain ⟨p1, p2, h5, h6⟩ := checks_split (q := b) (es := post) (by rw [h3']; simp)
  have hp1 : checks p1 = [] := by
    rw [h5, checks_append] at h3'
    cases hc : checks p1 with
    | nil => rfl
    | cons z zs => rw [hc] at h3'; simp at h3'; rw [hc, h3'.1] at h6; simp at h6
  have hev : evs env s = evs env s1 := hk.evs
  have hbq : b ∉ A ++ [q] := by
    exact visible_nodup _ _ (q := b) (a := A ++ [q]) (b := B) (by rw [show visible _ env.root = _ from h.1]; simp)
  have hiq : lineOf env s q = nbLines pre := line_index (by rw [hev]; exact h1) (by rw [h2]; exact h4)
  have hib : lineOf env s b = nbLines pre + nbLines p1 := by
    have := line_index (env := env) (s := s) (q := b) (pre := pre ++ .check q false :: p1) (post := p2) (by rw [hev, h1, h5]; simp)
      (by rw [checks_append, h2]; simp only [checks, hp1]; exact hbq)
    rw [this, nbLines_append]; rfl
  have hpair : Paired (evs env s1) := paired_value env s1.width s1.collapsed env.root [] [] false 0 (fun _ => rfl)
  have hp1pos : 1 ≤ nbLines p1 := by
    obtain ⟨x, t, m, lz, p3, hp3⟩ := hpair pre q post h1
    rw [h5] at hp3
    cases p1 with
    | nil => simp at hp3
    | cons e p1 => simp at hp3; rw [hp3.1]; simp [nbLines]
  omega

theorem total_drop (w : Nat) (R : List Row) (i j : Nat) (h : i ≤ j) : total w (R.drop j) ≤ total w (R.drop i) := by
  have : R.drop i = (R.drop i).take (j - i) ++ R.drop j := by
    rw [show R.drop j = (R.drop i).drop (j - i) by rw [List.drop_drop]; congr 1; omega, List.take_append_drop]
  rw [this, total_append]
  omega

/-- What begins on a screen begins on the screen that begins further down, but not below it. -/
theorem onScreen_later {w h : Nat} {rows : List Row} {b : Path} {i j : Nat} (hij : i ≤ j) (hj : j ≤ rows.findIdx (fun r => decide (r.item = b)))
    (ha : ∃ a ∈ onScreen w h 1 (rows.drop i), a.2.item = b) : ∃ a ∈ onScreen w h 1 (rows.drop j), a.2.item = b := by
  rcases Nat.lt_or_ge i j with hlt | hge
  · obtain ⟨a, ha, hab⟩ := ha
    generalize hk : rows.findIdx (fun r => decide (r.item = b)) = k at hj
    have hsplit : rows = rows.take k ++ rows.drop k := (List.take_append_drop k rows).symm
    have hne : ∀ r ∈ rows.take k, r.item ≠ b := by
      intro r hr hc
      obtain ⟨z, hz, rfl⟩ := List.getElem_of_mem hr
      rw [List.length_take] at hz
      have := List.not_of_lt_findIdx (xs := rows) (p := fun r => decide (r.item = b)) (i := z) (by omega)
      rw [List.getElem_take] at hc
      simp [hc] at this
    have hmem : ∃ r ∈ rows, r.item = b := by
      have key : ∀ (l : List Row) (y : Nat) (a : Nat × Row), a ∈ onScreen w h y l → a.2 ∈ l := by
        intro l
        induction l with
        | nil => intro y a h; simp [onScreen] at h
        | cons r l ih =>
          intro y a h
          rw [onScreen, List.mem_cons] at h
          rcases h with rfl | h
          · simp
          · split at h
            · exact List.mem_cons_of_mem _ (ih _ _ h)
            · simp at h
      exact ⟨a.2, List.mem_of_mem_drop (key _ _ _ ha), hab⟩
    have hklt : k < rows.length := by
      rw [← hk]
      apply List.findIdx_lt_length_of_exists
      obtain ⟨r, h1, h2⟩ := hmem
      exact ⟨r, h1, by simp [h2]⟩
    have hget : (rows[k]).item = b := by
      have := List.findIdx_getElem (xs := rows) (p := fun r => decide (r.item = b)) (w := by rw [hk]; exact hklt)
      simp only [hk] at this
      simpa using this
    have hlen : (rows.take k).length = k := by rw [List.length_take]; omega
    have d1 : ∀ z, z ≤ k → rows.drop z = (rows.take k).drop z ++ rows.drop k := by
      intro z hz
      conv => lhs; rw [hsplit]
      rw [List.drop_append_of_le_length (by omega)]
    rw [d1 i (by omega)] at ha
    have h1 := onScreen_mem (a := a) (fun r hr => by rw [hab]; exact hne r (List.mem_of_mem_drop hr)) (by
      intro hnil
      have := congrArg List.length hnil
      rw [List.length_drop, hlen] at this
      simp at this
      omega) ha
    have h2 := total_drop w (rows.take k) i j hij
    refine ⟨(1 + total w ((rows.take k).drop j), rows[k]), ?_, hget⟩
    rw [d1 j hj, List.drop_eq_getElem_cons hklt]
    exact onScreen_reach (by omega)
  · have : i = j := by omega
    subst this
    exact ha

/-- **C63, exactly.** Pressing Down often enough selects the next displayed item if and only if a screen that begins with the first line of the selection would have
the first line of that item on it; if not, the selection stays for ever. -/
theorem C63_exactly_partial (env : Env) (s : St) (A : List Path) (q b : Path) (B : List Path) (h : Drawing env s A q (b :: B)) (h3 : 3 ≤ s.width) (hw : s.width < 4294967296)
    (hh : 2 ≤ s.height) :
    ((∃ k s', Downs env k s s' ∧ s'.sel = some b) ↔
      ∃ a ∈ onScreen s.width s.height 1 ((outlineOf env s).drop (lineOf env s q)), a.2.item = b) ∧
    ((¬ ∃ a ∈ onScreen s.width s.height 1 ((outlineOf env s).drop (lineOf env s q)), a.2.item = b) → ∀ k s', Downs env k s s' → s'.sel = some q) := by
  have stuck : (¬ ∃ a ∈ onScreen s.width s.height 1 ((outlineOf env s).drop (lineOf env s q)), a.2.item = b) → ∀ k s', Downs env k s s' → s'.sel = some q := by
    intro hno k s' hd
    have key : Drawing env s' A q (b :: B) ∧ s'.width = s.width ∧ s'.height = s.height ∧ s'.collapsed = s.collapsed := by
      induction hd with
      | zero => exact ⟨h, rfl, rfl, rfl⟩
      | @more k n s t u hd hs ih =>
        obtain ⟨g, gw, gh, gc⟩ := ih h h3 hw hh hno
        have lay := next_layout g (by rw [gw]; exact h3) (by rw [gw]; exact hw) (by rw [gh]; exact hh)
        have hout : outlineOf env t = outlineOf env s := by unfold outlineOf; rw [gc]
        have hl : t.isLast = true := by
          refine lay.2.2 fun hb => hno ?_
          rw [BeginsOnScreen, gw, gh, hout] at hb
          have l1 := lay.1
          have l2 := line_below g
          simp only [lineOf, hout] at l1 l2
          exact onScreen_later l1 (Nat.le_of_lt l2) hb
        have hk : evalKey env b!"J" none t = .redraw { t with scroll := t.scroll + 2 } := by
          rw [(key_down env none t).1, selectDown, if_pos hl]
        obtain ⟨u', he, hn, hkept⟩ := step_redraw hk (q := q) g.2.1 (show q ∈ shownItems env { t with scroll := t.scroll + 2 } from g.mem) g.2.2.1 hs
        cases he
        have hsh : Drawing env u A q (b :: B) := shows_of_settle (s0 := { t with scroll := t.scroll + 2 }) g.2.1 g.1 g.2.2.1 hn
        exact ⟨hsh, hkept.2.2.2.1.trans gw, hkept.2.2.2.2.trans gh, hkept.2.1.trans gc⟩
    exact key.1.2.1
  refine ⟨⟨fun hx => ?_, fun hf => ?_⟩, stuck⟩
  · obtain ⟨k, s', h1, h2⟩ := hx
    apply Classical.byContradiction
    intro hno
    have := stuck hno k s' h1
    rw [h2] at this
    exact h.next_ne (Option.some.inj this)
  · obtain ⟨k, s', h1, h2, -⟩ := C63_down_partial env s A q b B h h3 hw hh hf
    exact ⟨k, s', h1, h2⟩

/-- The two situations: `[[1],2]` on four lines, and `[[[1]],2]` on three. -/
example : (∃ k s', Downs (plainEnv farDoc noRx) k farState s' ∧ s'.sel = some [1]) ∧
    ∀ k s', Downs (plainEnv deepDoc noRx) k stuckState s' → s'.sel = some [0, 0, 0] := by
  refine ⟨(C63_exactly_partial _ _ _ _ _ _ far_shows (by decide) (by decide) (by decide)).1.mpr (by decide +kernel), ?_⟩
  have hd : Drawing (plainEnv deepDoc noRx) stuckState [[], [0], [0, 0]] [0, 0, 0] [[1]] :=
    shows_of_settle (n := 1) (s0 := { stuckState with screen := [] }) rfl (by rfl) (by decide) (by decide +kernel)
  exact (C63_exactly_partial _ _ _ _ _ _ hd (by decide) (by decide) (by decide)).2 (by decide +kernel)

/-- The first element behind the subtree of another one, inside of the same object entries. -/
def FirstBehind (root : Json) (p q : Path) : Prop :=
  ((∃ e, elem root q = some e) ∧ p < q ∧ ¬ p <+: q) ∧ (∀ r, (∃ e, elem root r = some e) → p < r → ¬ p <+: r → q = r ∨ q < r) ∧
    ∀ a k v, elem root a = some (.entry k v) → a ++ [0] <+: p → a ++ [0] <+: q

/-- **C64, exactly.** In every drawn state whose selection stands for a container that is neither empty nor collapsed, Right selects the first item inside it if and only
if the selection is no object entry or this item begins on the screen. Otherwise it goes to the first element behind the entry (C43), and where there is none it stays. -/
theorem C64_exactly_partial (env : Env) (s : St) (A : List Path) (q : Path) (B : List Path) (h : Drawing env s A q B) (v : Path) (hv : Opens env.root q v)
    (hopen : v ∉ s.collapsed) (h3 : 3 ≤ s.width) (hw : s.width < 4294967296) (hh : 2 ≤ s.height)
    (n : Nat) (a : Answer) (name : Bytes) (pat : Option Pattern) (hname : name = b!"L" ∨ name = b!"KEY_RIGHT")
    (ha : step env n (.key name pat) s = some a) : ∃ s', a = .nextInput s' ∧ s'.collapsed = s.collapsed ∧
      (s'.sel = some (v ++ [0]) ↔ v = q ∨ BeginsOnScreen env s (v ++ [0])) ∧
      (s'.sel ≠ some (v ++ [0]) → (∃ r, FirstBehind env.root q r ∧ s'.sel = some r) ∨ ((¬ ∃ r, FirstBehind env.root q r) ∧ s'.sel = some q)) := by
  by_cases hcase : v = q ∨ BeginsOnScreen env s (v ++ [0])
  · obtain ⟨s', h1, h2, h4⟩ := C64_right_partial env s A q B h v hv hopen (hcase.imp_right fun hb => ⟨h3, hw, hh, hb⟩) n a name pat hname ha
    exact ⟨s', h1, h4, ⟨fun _ => hcase, fun _ => h2⟩, fun hne => absurd h2 hne⟩
  · have hvp := hv.value
    obtain ⟨⟨e, he, hq | hq⟩, c, hc1, hc2, hc3⟩ := id hv
    · exact absurd (Or.inl hq.2) hcase
    obtain ⟨hent, rfl⟩ := hq
    have hc1' := hc1
    rw [elem] at hc1'
    obtain ⟨B', rfl⟩ := first_shown h.1 _ hv hopen
    have hlast := (next_layout h h3 hw hh).2.2 fun hb => hcase (Or.inr hb)
    have hdown : s.down = some (fallback env s.collapsed q) := by
      rcases h.parts.2 with ⟨h1, -⟩ | ⟨-, h1⟩
      · rw [h1] at hlast; cases hlast
      · exact h1
    have hfb : fallback env s.collapsed q = (findNext env.root q).getD q := by
      rw [fallback, if_neg]
      rw [isOpen_iff]
      rintro ⟨c', k1, k2, -⟩
      rw [he] at k1
      cases k1
      cases e <;> simp [Elem.isEntry, Elem.isContainer] at hent k2
    have hkey : evalKey env name pat s = .redraw { s with sel := s.down } := by
      have : evalKey env name pat s = expandSelection env s := by
        rcases hname with rfl | rfl
        · exact (key_right env pat s).1
        · exact (key_right env pat s).2
      rw [this, expandSelection, h.2.1]
      simp only [hvp, hc1']
      have hk : c.kids.isEmpty = false := by cases hkk : c.kids <;> simp_all
      simp [hc2, hopen, hk]
    have hvis := (fallback_visible (env := env) (collapsed := s.collapsed) (q := q) h.mem).1
    obtain ⟨s', rfl, -, hkept⟩ := step_redraw hkey (q := fallback env s.collapsed q) hdown hvis h.2.2.1 ha
    have hsel : s'.sel = some ((findNext env.root q).getD q) := by rw [hkept.1, ← hfb]; exact hdown
    have hbehind : ∀ r, findNext env.root q = some r ↔ FirstBehind env.root q r := fun r => C43_exactly_partial env.root q r ⟨e, he⟩
    refine ⟨s', rfl, hkept.2.1, ⟨fun hx => ?_, fun hx => absurd hx hcase⟩, fun _ => ?_⟩
    · rw [hsel] at hx
      have hx := Option.some.inj hx
      cases hf : findNext env.root q with
      | none =>
        rw [hf] at hx
        have := congrArg List.length hx
        simp at this
      | some r =>
        rw [hf] at hx
        have hx : r = q ++ [0] ++ [0] := hx
        subst hx
        exact absurd (by rw [List.append_assoc]; exact List.prefix_append _ _) ((hbehind _).mp hf).1.2.2
    · cases hf : findNext env.root q with
      | none => exact .inr ⟨fun ⟨r, hr⟩ => (by rw [(hbehind r).mpr hr] at hf; cases hf), by rw [hsel, hf]; rfl⟩
      | some r => exact .inl ⟨r, (hbehind r).mp hf, by rw [hsel, hf]; rfl⟩

/-- `{"a":[1],"c":2}` on three lines with the entry `a` selected: the `1` does not begin on the screen, the entry `c` is the first element behind. -/
example : ¬ BeginsOnScreen (plainEnv rightDoc noRx) ⟨some [0], 0, [], [], some [], some [1], true, 80, 3, [⟨1, 0, b!"{", false, false⟩, ⟨2, 4, b!"a: ", true, false⟩]⟩ [0, 0, 0] ∧
    FirstBehind rightDoc [0] [1] :=
  ⟨by unfold BeginsOnScreen; decide +kernel, (C43_exactly_partial rightDoc [0] [1] ⟨_, rfl⟩).mp (by decide)⟩

end Verif.Props
