import Verif.Lemmas.SplitLevel
import Verif.Props.SplitScreen
/-! # C72: counterparts are at the same height -/
namespace Verif.Props
open Verif.Model Verif.Model.Search Verif.Model.Diff Verif.Model.Split Verif.Spec Verif.Spec.SplitView Verif.Lemmas.Split
open Verif.Model.Tui (getNbLines isEmptyJ)

theorem empty_iff (v : Json) : isEmptyJ v = true ↔ (Elem.value v).kids = [] := by
  cases v <;> simp [isEmptyJ, Elem.kids]

theorem match_compared {env : Env} (hc : Compared env) (hs : SameShape env) {view : View} (ha : Alike env view.collapsed) :
    Match (fun p q => env.equiv (.left p) = some (.right q)) env.left env.right (cOf view false) (cOf view true) (has env false) (has env true) := by
  obtain ⟨ht, hsym, hex⟩ := C30_tree_matching env.fmt env.left env.right env.table hc.1 env.order hc.2
  have g := Verif.Lemmas.Diff.build_good env.fmt (.value env.left) (.value env.right) [] [] env.table hc.1
  refine ⟨ht, ?_, ?_, ?_, ?_, ?_, ?_⟩
  · intro p
    unfold has
    rw [Option.isSome_iff_exists]
    constructor
    · rintro ⟨e, he⟩
      obtain ⟨q, _, _, rfl, _⟩ := hex p e he
      exact ⟨q, he⟩
    · rintro ⟨q, hq⟩
      exact ⟨_, hq⟩
  · intro q
    unfold has
    rw [Option.isSome_iff_exists]
    constructor
    · rintro ⟨e, he⟩
      rcases Verif.Lemmas.Diff.scan_side g hc.2 he with ⟨p, _, h, _⟩ | ⟨_, p, _, rfl⟩
      · cases h
      · exact ⟨p, (hsym _ _).mp he⟩
    · rintro ⟨p, hp⟩
      exact ⟨_, (hsym _ _).mp hp⟩
  · intro p q h
    obtain ⟨q', x, y, hq, hx, hy⟩ := hex p _ h
    cases hq
    exact ⟨x, y, hx, hy⟩
  · intro p q h
    unfold cOf
    have := ha _ _ h
    rw [Bool.eq_iff_iff, List.contains_iff_mem, List.contains_iff_mem]
    exact this
  · intro p q x y h hx hy
    exact hs.containers _ _ _ _ h hx hy
  · intro p q k k' v v' h hx hy
    rw [Bool.eq_iff_iff, empty_iff, empty_iff]
    exact hs.empty _ _ _ _ _ _ h hx hy

/-- What a cell of a window shows. -/
theorem cell_entry {env : Env} {view : View} {v w : Win} {side : Bool} {l : List Entry} (h : Shows env view v side false w l)
    (hp : ∀ e ∈ l, Placed env view side e) {c : Cell} (hc : c ∈ w.screen) : ∃ e ∈ l, ∃ b ∈ e.ls, w.scroll < b.2 ∧ c.row = b.2 - w.scroll ∧ c.col = e.it.col ∧
      c.who = b.1.who ∧ c.closing = b.1.closing ∧ (b.1.who = ptr side e.it.path ∧ b.1.closing = e.it.closing ∧ b.2 = e.y ∨
      e.it.closing = false ∧ b.1.who = ptr side (e.it.path ++ [0]) ∧ b.1.closing = false ∧ ∃ k u, env.elem (ptr side e.it.path) = some (.entry k u)) := by
  rw [h.screen, List.mem_flatMap] at hc
  obtain ⟨e, he, hc⟩ := hc
  obtain ⟨b, hb, rfl⟩ := List.mem_map.mp hc
  refine ⟨e, he, b, hb, (h.lines e he b hb).2.1, rfl, rfl, rfl, rfl, ?_⟩
  rcases hp e he b hb with h | ⟨h1, h2, h3, k, u, h4, _⟩
  · exact .inl h
  · exact .inr ⟨h1, h2, h3, k, u, by cases side <;> exact h4⟩

theorem ptr_inj {side : Bool} {p q : Path} (h : ptr side p = ptr side q) : p = q := by
  cases side <;> (unfold ptr at h; simpa using h)

/-- **C72, in part.** In a session without searches, if counterparts are of one shape: the texts of two counterparts are at the same height —
counting the lines that are scrolled out — and in the same column, except for the opening brackets below keys. -/
theorem C72_level_partial (env : Env) (hc : Compared env) (hs : SameShape env) (n k cols rows : Nat) (s : St) (h : Reached env n k cols rows noSearch s)
    (c c' : Cell) (h0 : c ∈ s.first.screen) (h1 : c' ∈ s.second.screen) (hq : env.equiv c.who = some c'.who) (hcl : c.closing = c'.closing)
    (hh : Heading env c) (hh' : Heading env c') : c.row + s.first.scroll = c'.row + s.second.scroll ∧ c.col = c'.col := by
  obtain ⟨s0, hs0⟩ := settled_reached h
  obtain ⟨_, _, hsel, hcol, _⟩ := settle_keeps hs0
  obtain ⟨v0, v1, l0, l1, _, _, hl, sh0, sh1⟩ := settle_shows hs0
  obtain ⟨p0, p1⟩ := logged_placed hl
  have hm := match_compared hc hs (view := s0.view) (show Alike env s0.collapsed from hcol ▸ alike_reached hc h)
  obtain ⟨m0, hi0, _⟩ := sh0.items
  obtain ⟨m1, hi1, _⟩ := sh1.items
  obtain ⟨e, he, b, hb, g1, g2, g3, g4, g5, g6⟩ := cell_entry sh0 p0 h0
  obtain ⟨e', he', b', hb', g1', g2', g3', g4', g5', g6'⟩ := cell_entry sh1 p1 h1
  have key : ∀ {side c e} {b : Print × Nat}, Heading env c → c.who = b.1.who → c.closing = b.1.closing → (b.1.who = ptr side e.it.path ∧ b.1.closing = e.it.closing ∧ b.2 = e.y ∨
      e.it.closing = false ∧ b.1.who = ptr side (e.it.path ++ [0]) ∧ b.1.closing = false ∧ ∃ k u, env.elem (ptr side e.it.path) = some (.entry k u)) →
      c.who = ptr side e.it.path ∧ c.closing = e.it.closing ∧ b.2 = (e : Entry).y := by
    intro side c e b hh h1 h2 h
    rcases h with ⟨a1, a2, a3⟩ | ⟨a1, a2, a3, k, u, a4⟩
    · exact ⟨h1.trans a1, h2.trans a2, a3⟩
    · exfalso
      rcases hh with hh | hh
      · rw [h2, a3] at hh; cases hh
      · exact hh side _ k u a4 (h1.trans a2)
  obtain ⟨k1, k2, k3⟩ := key hh g4 g5 g6
  obtain ⟨k1', k2', k3'⟩ := key hh' g4' g5' g6'
  obtain ⟨r1, r2⟩ := facing_y hm (logged_even hl) hi0 hi1 he he' (by rw [k1, k1'] at hq; exact hq) (by rw [← k2, ← k2', hcl])
  exact ⟨by omega, by rw [g3, g3', r2]⟩

/-- **C72, in part.** If moreover the keys of counterparts are of the same length, and the two windows are scrolled by as much, all texts of
two counterparts are in the same row and column. -/
theorem C72_row_partial (env : Env) (hc : Compared env) (hs : SameShape env) (hk : SameKeys env) (n k cols rows : Nat) (s : St)
    (h : Reached env n k cols rows noSearch s) (heq : s.first.scroll = s.second.scroll) (c c' : Cell) (h0 : c ∈ s.first.screen) (h1 : c' ∈ s.second.screen)
    (hq : env.equiv c.who = some c'.who) (hcl : c.closing = c'.closing) : c.row = c'.row ∧ c.col = c'.col := by
  obtain ⟨s0, hs0⟩ := settled_reached h
  obtain ⟨_, _, hsel, hcol, _⟩ := settle_keeps hs0
  obtain ⟨v0, v1, l0, l1, _, _, hl, sh0, sh1⟩ := settle_shows hs0
  obtain ⟨p0, p1⟩ := logged_placed hl
  obtain ⟨n0, n1⟩ := logged_lines hl
  have hm := match_compared hc hs (view := s0.view) (show Alike env s0.collapsed from hcol ▸ alike_reached hc h)
  obtain ⟨m0, hi0, _⟩ := sh0.items
  obtain ⟨m1, hi1, _⟩ := sh1.items
  obtain ⟨e, he, b, hb, g1, g2, g3, g4, g5, g6⟩ := cell_entry sh0 p0 h0
  obtain ⟨e', he', b', hb', g1', g2', g3', g4', g5', g6'⟩ := cell_entry sh1 p1 h1
  have hlead := items_lead (cOf s0.view false) env.left e.it (by
    show e.it ∈ itemsAll (cOf s0.view false) (env.root false)
    rw [hi0]; exact List.mem_append_left _ (List.mem_map.mpr ⟨e, he, rfl⟩))
  have hlead' := items_lead (cOf s0.view true) env.right e'.it (by
    show e'.it ∈ itemsAll (cOf s0.view true) (env.root true)
    rw [hi1]; exact List.mem_append_left _ (List.mem_map.mpr ⟨e', he', rfl⟩))
  have hup : ∀ {p q : Path} {i j : Nat}, env.equiv (.left (p ++ [i])) = some (.right (q ++ [j])) → env.equiv (.left p) = some (.right q) := by
    intro p q i j h
    rcases hm.tree.parents h with ⟨h, _⟩ | ⟨p', i', q', j', h1, h2, h3⟩
    · simp at h
    · rw [(List.append_inj' h1 rfl).1, (List.append_inj' h2 rfl).1]; exact h3
  have hroot : ∀ {q : Path} {j : Nat}, env.equiv (.left []) ≠ some (.right (q ++ [j])) := by
    intro q j h
    rcases hm.tree.parents h with ⟨_, h⟩ | ⟨p', i', q', j', h1, _⟩
    · simp at h
    · simp at h1
  have hroot' : ∀ {q : Path} {j : Nat}, env.equiv (.left (q ++ [j])) ≠ some (.right []) := by
    intro q j h
    rcases hm.tree.parents h with ⟨h, _⟩ | ⟨p', i', q', j', _, h1, _⟩
    · simp at h
    · simp at h1
  rcases g6 with ⟨a1, a2, a3⟩ | ⟨a1, a2, a3, key, u, a4⟩ <;> rcases g6' with ⟨a1', a2', a3'⟩ | ⟨a1', a2', a3', key', u', a4'⟩
  · rw [g4, g4', a1, a1'] at hq
    obtain ⟨r1, r2⟩ := facing_y hm (logged_even hl) hi0 hi1 he he' hq (by rw [← a2, ← a2', ← g5, ← g5', hcl])
    exact ⟨by omega, by rw [g3, g3', r2]⟩
  · exfalso
    rw [g4, g4', a1, a2'] at hq
    rcases hlead (by rw [← a2, ← g5, hcl, g5', a3']) with hr | ⟨p, i, x, hr, hx, hxc⟩
    · rw [hr] at hq; exact hroot hq
    · rw [hr] at hq
      have := hs.containers _ _ x _ (hup hq) hx a4'
      rw [hxc] at this
      cases this
  · exfalso
    rw [g4, g4', a2, a1'] at hq
    rcases hlead' (by rw [← a2', ← g5', ← hcl, g5, a3]) with hr | ⟨p, i, x, hr, hx, hxc⟩
    · rw [hr] at hq; exact hroot' hq
    · rw [hr] at hq
      have := hs.containers _ _ _ x (hup hq) a4 hx
      rw [hxc] at this
      cases this
  · rw [g4, g4', a2, a2'] at hq
    have hq' := hup hq
    obtain ⟨r1, r2⟩ := facing_y hm (logged_even hl) hi0 hi1 he he' hq' (by rw [a1, a1'])
    have e1 := n0.at_ e he b hb a2 a3 a1 key u a4
    have e2 := n1.at_ e' he' b' hb' a2' a3' a1' key' u' a4'
    have hlen := hk _ _ _ _ _ _ hq' a4 a4'
    dsimp only at e1 e2
    rw [hlen, r1, r2, heq] at e1
    exact ⟨by omega, by rw [g3, g3', r2]⟩

/-! ## Cases -/

theorem scan_mem {order : List (Ptr × Ptr)} {e q : Ptr} (h : scan order e = some q) : (e, q) ∈ order ∨ (q, e) ∈ order := by
  induction order with
  | nil => cases h
  | cons it order ih =>
    rw [scan] at h
    split at h
    · next h1 => cases h; cases h1; exact .inl (List.mem_cons_self ..)
    · split at h
      · next h1 => cases h; cases h1; exact .inr (List.mem_cons_self ..)
      · rcases ih h with h | h
        · exact .inl (List.mem_cons_of_mem _ h)
        · exact .inr (List.mem_cons_of_mem _ h)

def up : Ptr → Ptr
  | .left p => .left p.dropLast
  | .right p => .right p.dropLast

/-- The check of a pair of counterparts. -/
def shapePair (env : Env) (a b : Ptr) : Bool :=
  (match env.elem a, env.elem b with
    | some x, some y => x.isContainer == y.isContainer
    | _, _ => true) &&
  (match env.elem (up a), env.elem (up b) with
    | some (.entry _ v), some (.entry _ v') => (Elem.value v).kids.isEmpty == (Elem.value v').kids.isEmpty
    | _, _ => true) &&
  (match env.elem a, env.elem b with
    | some (.entry k _), some (.entry k' _) => env.len k == env.len k'
    | _, _ => true)

theorem same_of_pairs {env : Env} (h : env.order.all (fun x => shapePair env x.1 x.2 && shapePair env x.2 x.1) = true) : SameShape env ∧ SameKeys env := by
  have key : ∀ e q, env.equiv e = some q → shapePair env e q = true := by
    intro e q he
    rw [List.all_eq_true] at h
    rcases scan_mem he with hm | hm
    · have := h _ hm
      rw [Bool.and_eq_true] at this
      exact this.1
    · have := h _ hm
      rw [Bool.and_eq_true] at this
      exact this.2
  refine ⟨⟨?_, ?_⟩, ?_⟩
  · intro e q x y he hx hy
    have := key e q he
    unfold shapePair at this
    rw [hx, hy] at this
    simp only [Bool.and_eq_true] at this
    exact eq_of_beq this.1.1
  · intro p q k k' v v' he hx hy
    have := key _ _ he
    unfold shapePair at this
    simp only [up, List.dropLast_concat, hx, hy, Bool.and_eq_true] at this
    have := eq_of_beq this.1.2
    rw [← List.isEmpty_iff, ← List.isEmpty_iff, this]
  · intro p q k k' v v' he hx hy
    have := key _ _ he
    unfold shapePair at this
    rw [hx, hy] at this
    simp only [Bool.and_eq_true] at this
    exact eq_of_beq this.2

def bracket : Env := splitEnv (.arr [.arr [], .int 2]) (.arr [.int 5, .int 2])

/-- **C72 does not hold**: the closing bracket of an empty array whose counterpart is a number moves the rest down. -/
theorem C72_level_false : ¬ ∀ (env : Env), Compared env → ∀ (n k cols rows : Nat) (s : St), Reached env n k cols rows noSearch s →
    ∀ c ∈ s.first.screen, ∀ c' ∈ s.second.screen, env.equiv c.who = some c'.who → c.closing = c'.closing → c.row + s.first.scroll = c'.row + s.second.scroll := by
  intro h
  obtain ⟨s, hs, hp⟩ := session_some (env := bracket) (n := 50) (k := 50) (cols := 80) (rows := 24) (l := [])
    (p := fun s => decide (∃ c ∈ s.first.screen, ∃ c' ∈ s.second.screen, bracket.equiv c.who = some c'.who ∧ c.closing = c'.closing ∧
      c.row + s.first.scroll ≠ c'.row + s.second.scroll)) (by decide +kernel)
  obtain ⟨c, hc, c', hc', h1, h2, h3⟩ := of_decide_eq_true hp
  exact h3 (h bracket (splitEnv_compared (by decide +kernel)) 50 50 80 24 s (reached_from _ (fun i hi => by cases hi) hs) c hc c' hc' h1 h2)

def longerSecond : Env := splitEnv (.arr [.int 1, .int 2, .int 3]) (.arr [.int 1, .int 2, .int 3, .str b!"x"])

/-- **C72 does not hold** even if the documents are of one shape: an element without counterpart makes one of the windows scroll alone. -/
theorem C72_row_false : ¬ ∀ (env : Env), Compared env → SameShape env → SameKeys env → ∀ (n k cols rows : Nat) (s : St),
    Reached env n k cols rows noSearch s → ∀ c ∈ s.first.screen, ∀ c' ∈ s.second.screen, env.equiv c.who = some c'.who → c.closing = c'.closing → c.row = c'.row := by
  intro h
  obtain ⟨s, hs, hp⟩ := session_some (env := longerSecond) (n := 50) (k := 50) (cols := 80) (rows := 6)
    (l := [skey b!"^W-W", skey b!"J", skey b!"J", skey b!"J", skey b!"J"])
    (p := fun s => decide (∃ c ∈ s.first.screen, ∃ c' ∈ s.second.screen, longerSecond.equiv c.who = some c'.who ∧ c.closing = c'.closing ∧
      c.row ≠ c'.row)) (by decide +kernel)
  obtain ⟨c, hc, c', hc', h1, h2, h3⟩ := of_decide_eq_true hp
  have hsame : SameShape longerSecond ∧ SameKeys longerSecond := same_of_pairs (by decide +kernel)
  refine h3 (h longerSecond (splitEnv_compared (by decide +kernel)) hsame.1 hsame.2 50 50 80 6 s (reached_from _ ?_ hs) c hc c' hc' h1 h2)
  intro i hi s
  simp only [List.mem_cons, List.not_mem_nil, or_false] at hi
  rcases hi with rfl | rfl | rfl | rfl | rfl <;> exact noSearch_key (by decide) (by decide) s

def nested : Env := splitEnv (.arr [.obj [(b!"a", .arr [.int 1, .str b!"x"])]]) (.arr [.obj [(b!"a", .arr [.int 1, .str b!"y", .int 3])]])

/-- A case: an entry with an array, to which an element is added; the brackets of the array, and the line left free. -/
example : ∃ s, sessionFrom nested 50 50 80 24 [skey b!"J"] = some s ∧ Reached nested 50 50 80 24 noSearch s ∧ SameShape nested ∧ SameKeys nested ∧
    s.first.scroll = s.second.scroll ∧ (∃ c ∈ s.first.screen, ∃ c' ∈ s.second.screen, nested.equiv c.who = some c'.who ∧ c.who = .left [0, 0, 0] ∧
      c.closing = true ∧ c'.closing = true ∧ c.row = 8 ∧ c'.row = 8) ∧
    (∃ c ∈ s.second.screen, c.row = 7) ∧ ∀ c ∈ s.first.screen, c.row ≠ 7 := by
  obtain ⟨s, hs, hp⟩ := session_some (env := nested) (n := 50) (k := 50) (cols := 80) (rows := 24) (l := [skey b!"J"])
    (p := fun s => decide (s.first.scroll = s.second.scroll ∧ (∃ c ∈ s.first.screen, ∃ c' ∈ s.second.screen, nested.equiv c.who = some c'.who ∧ c.who = .left [0, 0, 0] ∧
      c.closing = true ∧ c'.closing = true ∧ c.row = 8 ∧ c'.row = 8) ∧
    (∃ c ∈ s.second.screen, c.row = 7) ∧ ∀ c ∈ s.first.screen, c.row ≠ 7)) (by decide +kernel)
  have hsame : SameShape nested ∧ SameKeys nested := same_of_pairs (by decide +kernel)
  refine ⟨s, hs, reached_from _ ?_ hs, hsame.1, hsame.2, of_decide_eq_true hp⟩
  intro i hi s
  rw [List.mem_singleton.mp hi]
  exact noSearch_key (by decide) (by decide) s

end Verif.Props
