import Verif.Props.InPlace
import Verif.Spec.Edited
import Verif.Lemmas.DiffMoved
/-! # C139: the comparison shows the edit -/
namespace Verif.Props
open Verif.Model Verif.Model.Diff Verif.Spec Verif.Lemmas.Diff

/-- Two containers of which it is known which children face each other. -/
structure Settled (text : Json → Bytes) (a b : Elem) (P : Nat → Nat → Prop) : Prop where
  zero : Facing text a b 0
  pairs : ∀ (cost : Nat → Nat → Nat) l, (∀ (i j : Nat) (u w : Elem), a.kids[i]? = some u → b.kids[j]? = some w → Facing text u w (cost i j)) →
    Chosen cost a.kids.length b.kids.length l → ∀ i j, (i, j) ∈ l ↔ P i j

theorem facing_grown {text : Json → Bytes} {a b : Elem} (ca : a.isContainer = true) (cb : b.isContainer = true) {f : Nat → Nat} (mono : ∀ i j, i < j → f i < f j) (h0 : 0 < a.kids.length)
    (hin : ∀ i < a.kids.length, f i < b.kids.length) (hz : ∀ (i : Nat) (u w : Elem), a.kids[i]? = some u → b.kids[f i]? = some w → Facing text u w 0) : Facing text a b 0 := by
  obtain ⟨cost, hcost⟩ := costs_exist text a b
  obtain ⟨l, hl, hle⟩ := align_inserts (cost := cost) mono _ _ hin fun i hi =>
    facing_unique (hcost i (f i) _ _ (List.getElem?_eq_getElem hi) (List.getElem?_eq_getElem (hin i hi))) (hz i _ _ (List.getElem?_eq_getElem hi) (List.getElem?_eq_getElem (hin i hi)))
  have := Facing.containers ca cb hcost hl fun l' d' h' => (align_difference h').1
  rw [if_pos (.inl (by omega))] at this
  exact this

theorem settled_added {text : Json → Bytes} {a b : Elem} (ca : a.isContainer = true) (cb : b.isContainer = true) {f : Nat → Nat} (mono : ∀ i j, i < j → f i < f j) (h0 : 0 < a.kids.length)
    (hin : ∀ i < a.kids.length, f i < b.kids.length) (hz : ∀ (i : Nat) (u w : Elem), a.kids[i]? = some u → b.kids[f i]? = some w → Facing text u w 0)
    (hnew : ∀ (i j : Nat) (u w : Elem), a.kids[i]? = some u → b.kids[j]? = some w → (∀ k < a.kids.length, f k ≠ j) → ¬ Facing text u w 0) : Settled text a b fun i j => i < a.kids.length ∧ j = f i := by
  refine ⟨facing_grown ca cb mono h0 hin hz, fun cost l hcost hch i j => ?_⟩
  obtain ⟨l0, hl0, hle⟩ := align_inserts (cost := cost) mono _ _ hin fun i hi =>
    facing_unique (hcost i (f i) _ _ (List.getElem?_eq_getElem hi) (List.getElem?_eq_getElem (hin i hi))) (hz i _ _ (List.getElem?_eq_getElem hi) (List.getElem?_eq_getElem (hin i hi)))
  obtain ⟨d, hd, hl⟩ := chosen_least hch hl0
  exact align_inserted mono (fun i hi j hj hno e => hnew i j _ _ (List.getElem?_eq_getElem hi) (List.getElem?_eq_getElem hj) hno
    (e ▸ hcost i j _ _ (List.getElem?_eq_getElem hi) (List.getElem?_eq_getElem hj))) hl hd hle i j

theorem settled_removed {text : Json → Bytes} {a b : Elem} (ca : a.isContainer = true) (cb : b.isContainer = true) {f : Nat → Nat} (mono : ∀ i j, i < j → f i < f j) (h0 : 0 < b.kids.length)
    (hin : ∀ i < b.kids.length, f i < a.kids.length) (hz : ∀ (i : Nat) (u w : Elem), a.kids[f i]? = some u → b.kids[i]? = some w → Facing text u w 0)
    (hnew : ∀ (i j : Nat) (u w : Elem), a.kids[i]? = some u → b.kids[j]? = some w → (∀ k < b.kids.length, f k ≠ i) → ¬ Facing text u w 0) : Settled text a b fun i j => j < b.kids.length ∧ i = f j := by
  have hz' : ∀ (i : Nat) (u w : Elem), b.kids[i]? = some u → a.kids[f i]? = some w → Facing text u w 0 := fun i u w hu hw => facing_symm (hz i w u hw hu)
  refine ⟨facing_symm (facing_grown cb ca mono h0 hin hz'), fun cost l hcost hch i j => ?_⟩
  obtain ⟨l0, hl0, hle⟩ := align_inserts (cost := fun j i => cost i j) mono _ _ hin fun i hi =>
    facing_unique (hcost (f i) i _ _ (List.getElem?_eq_getElem (hin i hi)) (List.getElem?_eq_getElem hi)) (hz i _ _ (List.getElem?_eq_getElem (hin i hi)) (List.getElem?_eq_getElem hi))
  obtain ⟨d, hd, hl⟩ := chosen_least hch (align_swap hl0)
  rw [← mem_swap]
  exact align_inserted mono (fun i hi j hj hno e => hnew j i _ _ (List.getElem?_eq_getElem hj) (List.getElem?_eq_getElem hi) hno
    (e ▸ hcost j i _ _ (List.getElem?_eq_getElem hj) (List.getElem?_eq_getElem hi))) (align_swap hl) hd hle j i

theorem settled_changed {text : Json → Bytes} {a b : Elem} (ca : a.isContainer = true) (cb : b.isContainer = true) (hn : a.kids.length = b.kids.length)
    (hc : ∀ (i : Nat) (u w : Elem), a.kids[i]? = some u → b.kids[i]? = some w → ∃ c ≤ 1, Facing text u w c ∧ (KeptAs u w → c = 0))
    (hex : ∃ (i : Nat) (u w : Elem), a.kids[i]? = some u ∧ b.kids[i]? = some w ∧ KeptAs u w)
    (hor : (∀ (i j : Nat) (u w u' w' : Elem), i ≠ j → a.kids[i]? = some u → b.kids[i]? = some w → a.kids[j]? = some u' → b.kids[j]? = some w' → KeptAs u w ∨ KeptAs u' w') ∨
        (∀ (i j : Nat) (u w : Elem), i ≠ j → a.kids[i]? = some u → b.kids[j]? = some w → ¬ Facing text u w 0)) : Settled text a b fun i j => i < a.kids.length ∧ j = i := by
  have ga : ∀ i (hi : i < a.kids.length), a.kids[i]? = some a.kids[i] := fun i hi => List.getElem?_eq_getElem hi
  have gb : ∀ i (hi : i < a.kids.length), b.kids[i]? = some (b.kids[i]'(by omega)) := fun i hi => List.getElem?_eq_getElem (by omega)
  have hs : Straight text a b := by
    refine ⟨ca, cb, hn, fun cost hcost => ?_⟩
    have hc' : ∀ (i : Nat) (u w : Elem), a.kids[i]? = some u → b.kids[i]? = some w → cost i i ≤ 1 ∧ (KeptAs u w → cost i i = 0) := by
      intro i u w hu hw
      obtain ⟨c, g1, g2, g3⟩ := hc i u w hu hw
      have e := facing_unique (hcost i i u w hu hw) g2
      exact ⟨by omega, fun hk => by rw [e]; exact g3 hk⟩
    refine ⟨fun i hi => (hc' i _ _ (ga i hi) (gb i hi)).1, ?_, hor.imp (fun h i hi j hj hij => ?_) fun h i hi j hj hij => ?_⟩
    · obtain ⟨i, u, w, hu, hw, hk⟩ := hex
      exact ⟨i, (List.getElem?_eq_some_iff.mp hu).1, (hc' i u w hu hw).2 hk⟩
    · exact (h i j _ _ _ _ hij (ga i hi) (gb i hi) (ga j hj) (gb j hj)).imp (hc' i _ _ (ga i hi) (gb i hi)).2 (hc' j _ _ (ga j hj) (gb j hj)).2
    · have h1 := h i j _ _ hij (ga i hi) (gb j hj)
      have h2 := hcost i j _ _ (ga i hi) (gb j hj)
      refine Nat.one_le_iff_ne_zero.mpr fun e => h1 (e ▸ h2)
  refine ⟨hs.zero, fun cost l hcost hch i j => ?_⟩
  obtain ⟨g1, _, g3⟩ := hs.costs cost hcost
  rw [← hn] at hch
  exact chosen_straight g1 g3 hch i j

theorem settled_appended {text : Json → Bytes} {a b : Elem} (ca : a.isContainer = true) (cb : b.isContainer = true) (h0 : 0 < a.kids.length) (hn : a.kids.length ≤ b.kids.length)
    (hz : ∀ (i : Nat) (u w : Elem), a.kids[i]? = some u → b.kids[i]? = some w → Facing text u w 0) : Settled text a b fun i j => i < a.kids.length ∧ j = i := by
  refine ⟨facing_grown (f := fun i => i) ca cb (fun _ _ h => h) h0 (fun i hi => by omega) hz, fun cost l hcost hch => ?_⟩
  obtain ⟨l', hl, hi⟩ := chosen_appended (cost := cost) (n := a.kids.length) (fun i hi =>
    facing_unique (hcost i i _ _ (List.getElem?_eq_getElem hi) (List.getElem?_eq_getElem (by omega))) (hz i _ _ (List.getElem?_eq_getElem hi) (List.getElem?_eq_getElem (by omega)))) (b.kids.length - a.kids.length)
  rw [Nat.add_sub_cancel' hn] at hl
  rw [chosen_unique hch hl]
  exact hi

theorem settled_cut {text : Json → Bytes} {a b : Elem} (ca : a.isContainer = true) (cb : b.isContainer = true) (h0 : 0 < b.kids.length) (hn : b.kids.length ≤ a.kids.length)
    (hz : ∀ (i : Nat) (u w : Elem), a.kids[i]? = some u → b.kids[i]? = some w → Facing text u w 0) : Settled text a b fun i j => i < b.kids.length ∧ j = i := by
  refine ⟨facing_symm (facing_grown (f := fun i => i) cb ca (fun _ _ h => h) h0 (fun i hi => by omega) fun i u w hu hw => facing_symm (hz i w u hw hu)), fun cost l hcost hch => ?_⟩
  obtain ⟨l', hl, hi⟩ := chosen_chopped (cost := cost) (n := b.kids.length) (fun i hi =>
    facing_unique (hcost i i _ _ (List.getElem?_eq_getElem (by omega)) (List.getElem?_eq_getElem hi)) (hz i _ _ (List.getElem?_eq_getElem (by omega)) (List.getElem?_eq_getElem hi))) (a.kids.length - b.kids.length)
  rw [Nat.add_sub_cancel' hn] at hl
  rw [chosen_unique hch hl]
  exact hi

theorem settled_moved {text : Json → Bytes} {a b : Elem} (ca : a.isContainer = true) (cb : b.isContainer = true) {s t : Nat} (hn : a.kids.length = b.kids.length) (hs : s < a.kids.length) (ht : t < a.kids.length) (hst : s + 2 ≤ t ∨ t + 2 ≤ s)
    (hz : ∀ (k : Nat) (u w : Elem), a.kids[beyond s k]? = some u → b.kids[beyond t k]? = some w → Facing text u w 0)
    (hne : ∀ (i j : Nat) (u w : Elem), a.kids[i]? = some u → b.kids[j]? = some w → (∀ k, ¬ (i = beyond s k ∧ j = beyond t k)) → ¬ (i = s ∧ j = t) → ¬ Facing text u w 0) :
    Settled text a b fun i j => ∃ k, k + 1 < a.kids.length ∧ i = beyond s k ∧ j = beyond t k := by
  have hin : ∀ k, k + 1 < a.kids.length → beyond s k < a.kids.length ∧ beyond t k < b.kids.length := fun k hk => by
    rcases beyond_cases s k with g | g <;> rcases beyond_cases t k with g' | g' <;> omega
  have two : ∀ cost : Nat → Nat → Nat, (∀ (i j : Nat) (u w : Elem), a.kids[i]? = some u → b.kids[j]? = some w → Facing text u w (cost i j)) → ∃ l, Align cost a.kids.length b.kids.length l 2 := by
    intro cost hcost
    rw [← hn]
    refine moved_two hs ht fun k hk => ?_
    obtain ⟨h1, h2⟩ := hin k hk
    exact facing_unique (hcost _ _ _ _ (List.getElem?_eq_getElem h1) (List.getElem?_eq_getElem h2)) (hz k _ _ (List.getElem?_eq_getElem h1) (List.getElem?_eq_getElem h2))
  refine ⟨?_, fun cost l hcost hch i j => ?_⟩
  · obtain ⟨cost, hcost⟩ := costs_exist text a b
    obtain ⟨l, hl⟩ := chosen_exists cost a.kids.length b.kids.length
    obtain ⟨l0, hl0⟩ := two cost hcost
    obtain ⟨d, h1, h2⟩ := chosen_align hl
    have := Facing.containers ca cb hcost h1 h2.2
    have h3 := h2.2 _ _ hl0
    rw [if_pos (.inl (by omega))] at this
    exact this
  · obtain ⟨l0, hl0⟩ := two cost hcost
    obtain ⟨d, hd, hl⟩ := chosen_least hch hl0
    rw [← hn] at hl
    refine align_moved hs ht hst (fun i hi j hj hno hst e => ?_) hl hd i j
    rw [hn] at hj
    refine hne i j _ _ (List.getElem?_eq_getElem hi) (List.getElem?_eq_getElem hj) (fun k hk => ?_) hst (e ▸ hcost i j _ _ (List.getElem?_eq_getElem hi) (List.getElem?_eq_getElem hj))
    refine hno k ?_ hk
    rcases beyond_cases s k with g | g <;> rcases beyond_cases t k with g' | g' <;> omega

theorem edited_cost {text : Json → Bytes} {x y : Elem} {place : Path → Path → Prop} (h : Edited text x y place) : ∃ c ≤ 1, Facing text x y c ∧ (KeptAs x y → c = 0) := by
  induction h with
  | same x => exact ⟨0, by omega, facing_self text x, fun _ => rfl⟩
  | @primitive v v' h1 h2 =>
    refine (Classical.em (Near (text v) (text v'))).elim (fun hn => ⟨0, by omega, .near h1 h2 hn, fun _ => rfl⟩) fun hn => ⟨1, by omega, .far h1 h2 hn, ?_⟩
    rintro (e | hc | ⟨k, w, e, _⟩)
    · cases e; exact absurd (.inl rfl) hn
    · exact absurd ((container_iff v).mp hc) h1
    · cases e
  | @member k v v' place _ ih =>
    obtain ⟨c, h1, h2, h3⟩ := ih
    refine ⟨c, h1, .sameKey h2, ?_⟩
    rintro (e | hc | ⟨k', w, e, hw⟩)
    · cases e; exact h3 (.inl rfl)
    · cases hc
    · cases e; exact h3 (.inr (.inl ((container_iff v).mpr hw)))
  | added ca cb mono h0 hin _ hk hnew ih =>
    refine ⟨0, by omega, (settled_added ca cb mono h0 hin (fun i u w hu hw => ?_) hnew).zero, fun _ => rfl⟩
    obtain ⟨c, _, g2, g3⟩ := ih i u w hu hw
    cases g3 (hk i u w hu hw)
    exact g2
  | removed ca cb mono h0 hin _ hk hnew ih =>
    refine ⟨0, by omega, (settled_removed ca cb mono h0 hin (fun i u w hu hw => ?_) hnew).zero, fun _ => rfl⟩
    obtain ⟨c, _, g2, g3⟩ := ih i u w hu hw
    cases g3 (hk i u w hu hw)
    exact g2
  | changed ca cb hn _ hex hor ih => exact ⟨0, by omega, (settled_changed ca cb hn ih hex hor).zero, fun _ => rfl⟩
  | appended ca cb h0 hn _ hk ih =>
    refine ⟨0, by omega, (settled_appended ca cb h0 hn fun i u w hu hw => ?_).zero, fun _ => rfl⟩
    obtain ⟨c, _, g2, g3⟩ := ih i u w hu hw
    cases g3 (hk i u w hu hw)
    exact g2
  | cut ca cb h0 hn _ hk ih =>
    refine ⟨0, by omega, (settled_cut ca cb h0 hn fun i u w hu hw => ?_).zero, fun _ => rfl⟩
    obtain ⟨c, _, g2, g3⟩ := ih i u w hu hw
    cases g3 (hk i u w hu hw)
    exact g2
  | moved ca cb hn hs ht hst _ hk hne ih =>
    refine ⟨0, by omega, (settled_moved ca cb hn hs ht hst (fun k u w hu hw => ?_) hne).zero, fun _ => rfl⟩
    obtain ⟨c, _, g2, g3⟩ := ih k u w hu hw
    cases g3 (hk k u w hu hw)
    exact g2

theorem edited_zero {text : Json → Bytes} {x y : Elem} {place : Path → Path → Prop} (h : Edited text x y place) (hk : KeptAs x y) : Facing text x y 0 := by
  obtain ⟨c, _, g2, g3⟩ := edited_cost h
  cases g3 hk
  exact g2

/-- In containers of which it is known which children face each other. -/
theorem opposed_places {text : Json → Bytes} {a b : Elem} {P : Nat → Nat → Prop} (ca : a.isContainer = true) (cb : b.isContainer = true) (hs : Settled text a b P) (p q : Path) :
    Opposed text a b p q ↔ (p = [] ∧ q = []) ∨ ∃ i j p' q' u w, P i j ∧ p = i :: p' ∧ q = j :: q' ∧ a.kids[i]? = some u ∧ b.kids[j]? = some w ∧ Opposed text u w p' q' := by
  constructor
  · intro h
    cases h with
    | here => exact .inl ⟨rfl, rfl⟩
    | values => cases ca
    | children _ _ _ hcost hch hm hx hy ho => exact .inr ⟨_, _, _, _, _, _, (hs.pairs _ _ hcost hch _ _).mp hm, rfl, rfl, hx, hy, ho⟩
  · rintro (⟨rfl, rfl⟩ | ⟨i, j, p', q', u, w, hp, rfl, rfl, hu, hw, ho⟩)
    · exact .here
    · obtain ⟨cost, hcost⟩ := costs_exist text a b
      obtain ⟨l, hl⟩ := chosen_exists cost a.kids.length b.kids.length
      exact .children ca cb hs.zero hcost hl ((hs.pairs cost l hcost hl i j).mpr hp) hu hw ho

/-- What is opposite each other is what was and what is in the same place. -/
theorem edited_opposed {text : Json → Bytes} {a b : Elem} {place : Path → Path → Prop} (h : Edited text a b place) : ∀ p q, Opposed text a b p q ↔ place p q := by
  induction h with
  | same x =>
    intro p q
    exact ⟨fun h => opposed_self h rfl, by rintro ⟨rfl, u, hu⟩; exact self_opposed text p x u hu⟩
  | @primitive v v' h1 h2 =>
    intro p q
    constructor
    · intro h
      cases h with
      | here => exact ⟨rfl, rfl⟩
      | children c1 => exact absurd ((container_iff v).mp c1) h1
    · rintro ⟨rfl, rfl⟩; exact .here
  | @member k v v' place _ ih =>
    intro p q
    constructor
    · intro h
      cases h with
      | here => exact .inl ⟨rfl, rfl⟩
      | values h => exact .inr ⟨_, _, rfl, rfl, (ih _ _).mp h⟩
      | children c1 => cases c1
    · rintro (⟨rfl, rfl⟩ | ⟨p', q', rfl, rfl, h⟩)
      · exact .here
      · exact .values ((ih _ _).mpr h)
  | @added a b f place ca cb mono h0 hin he hk hnew ih =>
    intro p q
    rw [opposed_places ca cb (settled_added ca cb mono h0 hin (fun i u w hu hw => edited_zero (he i u w hu hw) (hk i u w hu hw)) hnew)]
    refine or_congr_right ⟨?_, ?_⟩
    · rintro ⟨i, j, p', q', u, w, ⟨hi, rfl⟩, rfl, rfl, hu, hw, ho⟩
      exact ⟨i, p', q', hi, rfl, rfl, (ih i u w hu hw _ _).mp ho⟩
    · rintro ⟨i, p', q', hi, rfl, rfl, ho⟩
      have hu : a.kids[i]? = some a.kids[i] := List.getElem?_eq_getElem hi
      have hw : b.kids[f i]? = some (b.kids[f i]'(hin i hi)) := List.getElem?_eq_getElem _
      exact ⟨i, f i, p', q', _, _, ⟨hi, rfl⟩, rfl, rfl, hu, hw, (ih i _ _ hu hw _ _).mpr ho⟩
  | @removed a b f place ca cb mono h0 hin he hk hnew ih =>
    intro p q
    rw [opposed_places ca cb (settled_removed ca cb mono h0 hin (fun i u w hu hw => edited_zero (he i u w hu hw) (hk i u w hu hw)) hnew)]
    refine or_congr_right ⟨?_, ?_⟩
    · rintro ⟨i, j, p', q', u, w, ⟨hi, rfl⟩, rfl, rfl, hu, hw, ho⟩
      exact ⟨j, p', q', hi, rfl, rfl, (ih j u w hu hw _ _).mp ho⟩
    · rintro ⟨i, p', q', hi, rfl, rfl, ho⟩
      have hu : a.kids[f i]? = some (a.kids[f i]'(hin i hi)) := List.getElem?_eq_getElem _
      have hw : b.kids[i]? = some b.kids[i] := List.getElem?_eq_getElem hi
      exact ⟨f i, i, p', q', _, _, ⟨hi, rfl⟩, rfl, rfl, hu, hw, (ih i _ _ hu hw _ _).mpr ho⟩
  | @changed a b place ca cb hn he hex hor ih =>
    intro p q
    rw [opposed_places ca cb (settled_changed ca cb hn (fun i u w hu hw => edited_cost (he i u w hu hw)) hex hor)]
    refine or_congr_right ⟨?_, ?_⟩
    · rintro ⟨i, j, p', q', u, w, ⟨hi, rfl⟩, rfl, rfl, hu, hw, ho⟩
      exact ⟨_, p', q', hi, rfl, rfl, (ih _ u w hu hw _ _).mp ho⟩
    · rintro ⟨i, p', q', hi, rfl, rfl, ho⟩
      have hu : a.kids[i]? = some a.kids[i] := List.getElem?_eq_getElem hi
      have hw : b.kids[i]? = some (b.kids[i]'(by omega)) := List.getElem?_eq_getElem _
      exact ⟨i, i, p', q', _, _, ⟨hi, rfl⟩, rfl, rfl, hu, hw, (ih i _ _ hu hw _ _).mpr ho⟩
  | @appended a b place ca cb h0 hn he hk ih =>
    intro p q
    rw [opposed_places ca cb (settled_appended ca cb h0 hn fun i u w hu hw => edited_zero (he i u w hu hw) (hk i u w hu hw))]
    refine or_congr_right ⟨?_, ?_⟩
    · rintro ⟨i, j, p', q', u, w, ⟨hi, rfl⟩, rfl, rfl, hu, hw, ho⟩
      exact ⟨_, p', q', hi, rfl, rfl, (ih _ u w hu hw _ _).mp ho⟩
    · rintro ⟨i, p', q', hi, rfl, rfl, ho⟩
      have hu : a.kids[i]? = some (a.kids[i]'(by omega)) := List.getElem?_eq_getElem _
      have hw : b.kids[i]? = some (b.kids[i]'(by omega)) := List.getElem?_eq_getElem _
      exact ⟨i, i, p', q', _, _, ⟨hi, rfl⟩, rfl, rfl, hu, hw, (ih i _ _ hu hw _ _).mpr ho⟩
  | @cut a b place ca cb h0 hn he hk ih =>
    intro p q
    rw [opposed_places ca cb (settled_cut ca cb h0 hn fun i u w hu hw => edited_zero (he i u w hu hw) (hk i u w hu hw))]
    refine or_congr_right ⟨?_, ?_⟩
    · rintro ⟨i, j, p', q', u, w, ⟨hi, rfl⟩, rfl, rfl, hu, hw, ho⟩
      exact ⟨_, p', q', hi, rfl, rfl, (ih _ u w hu hw _ _).mp ho⟩
    · rintro ⟨i, p', q', hi, rfl, rfl, ho⟩
      have hu : a.kids[i]? = some (a.kids[i]'(by omega)) := List.getElem?_eq_getElem _
      have hw : b.kids[i]? = some (b.kids[i]'(by omega)) := List.getElem?_eq_getElem _
      exact ⟨i, i, p', q', _, _, ⟨hi, rfl⟩, rfl, rfl, hu, hw, (ih i _ _ hu hw _ _).mpr ho⟩
  | @moved a b s t place ca cb hn hs ht hst he hk hne ih =>
    intro p q
    rw [opposed_places ca cb (settled_moved ca cb hn hs ht hst (fun k u w hu hw => edited_zero (he k u w hu hw) (hk k u w hu hw)) hne)]
    refine or_congr_right ⟨?_, ?_⟩
    · rintro ⟨i, j, p', q', u, w, ⟨k, hk', rfl, rfl⟩, rfl, rfl, hu, hw, ho⟩
      exact ⟨k, p', q', hk', rfl, rfl, (ih _ u w hu hw _ _).mp ho⟩
    · rintro ⟨k, p', q', hk', rfl, rfl, ho⟩
      have hu : a.kids[beyond s k]? = some (a.kids[beyond s k]'(by rcases beyond_cases s k with g | g <;> omega)) := List.getElem?_eq_getElem _
      have hw : b.kids[beyond t k]? = some (b.kids[beyond t k]'(by rcases beyond_cases t k with g | g <;> omega)) := List.getElem?_eq_getElem _
      exact ⟨_, _, p', q', _, _, ⟨k, hk', rfl, rfl⟩, rfl, rfl, hu, hw, (ih k _ _ hu hw _ _).mpr ho⟩

/-- What was and what is in the same place is edited itself. -/
theorem edited_place {text : Json → Bytes} {a b : Elem} {place : Path → Path → Prop} (h : Edited text a b place) :
    ∀ p q, place p q → ∃ x y place', a.at p = some x ∧ b.at q = some y ∧ Edited text x y place' := by
  induction h with
  | same x => rintro p q ⟨rfl, u, hu⟩; exact ⟨u, u, _, hu, hu, .same u⟩
  | primitive h1 h2 => rintro p q ⟨rfl, rfl⟩; exact ⟨_, _, _, rfl, rfl, .primitive h1 h2⟩
  | member h ih =>
    rintro p q (⟨rfl, rfl⟩ | ⟨p', q', rfl, rfl, h'⟩)
    · exact ⟨_, _, _, rfl, rfl, .member h⟩
    · obtain ⟨x, y, pl, h1, h2, h3⟩ := ih p' q' h'
      exact ⟨x, y, pl, by rw [at_cons (i := 0) _ rfl]; exact h1, by rw [at_cons (i := 0) _ rfl]; exact h2, h3⟩
  | @added a b f place ca cb mono h0 hin he hk hnew ih =>
    rintro p q (⟨rfl, rfl⟩ | ⟨i, p', q', hi, rfl, rfl, h'⟩)
    · exact ⟨_, _, _, rfl, rfl, .added ca cb mono h0 hin he hk hnew⟩
    · have hu : a.kids[i]? = some a.kids[i] := List.getElem?_eq_getElem hi
      have hw : b.kids[f i]? = some (b.kids[f i]'(hin i hi)) := List.getElem?_eq_getElem _
      obtain ⟨x, y, pl, h1, h2, h3⟩ := ih i _ _ hu hw p' q' h'
      exact ⟨x, y, pl, by rw [at_cons _ hu]; exact h1, by rw [at_cons _ hw]; exact h2, h3⟩
  | @removed a b f place ca cb mono h0 hin he hk hnew ih =>
    rintro p q (⟨rfl, rfl⟩ | ⟨i, p', q', hi, rfl, rfl, h'⟩)
    · exact ⟨_, _, _, rfl, rfl, .removed ca cb mono h0 hin he hk hnew⟩
    · have hu : a.kids[f i]? = some (a.kids[f i]'(hin i hi)) := List.getElem?_eq_getElem _
      have hw : b.kids[i]? = some b.kids[i] := List.getElem?_eq_getElem hi
      obtain ⟨x, y, pl, h1, h2, h3⟩ := ih i _ _ hu hw p' q' h'
      exact ⟨x, y, pl, by rw [at_cons _ hu]; exact h1, by rw [at_cons _ hw]; exact h2, h3⟩
  | @changed a b place ca cb hn he hex hor ih =>
    rintro p q (⟨rfl, rfl⟩ | ⟨i, p', q', hi, rfl, rfl, h'⟩)
    · exact ⟨_, _, _, rfl, rfl, .changed ca cb hn he hex hor⟩
    · have hu : a.kids[i]? = some a.kids[i] := List.getElem?_eq_getElem hi
      have hw : b.kids[i]? = some (b.kids[i]'(by omega)) := List.getElem?_eq_getElem _
      obtain ⟨x, y, pl, h1, h2, h3⟩ := ih i _ _ hu hw p' q' h'
      exact ⟨x, y, pl, by rw [at_cons _ hu]; exact h1, by rw [at_cons _ hw]; exact h2, h3⟩
  | @appended a b place ca cb h0 hn he hk ih =>
    rintro p q (⟨rfl, rfl⟩ | ⟨i, p', q', hi, rfl, rfl, h'⟩)
    · exact ⟨_, _, _, rfl, rfl, .appended ca cb h0 hn he hk⟩
    · have hu : a.kids[i]? = some (a.kids[i]'(by omega)) := List.getElem?_eq_getElem _
      have hw : b.kids[i]? = some (b.kids[i]'(by omega)) := List.getElem?_eq_getElem _
      obtain ⟨x, y, pl, h1, h2, h3⟩ := ih i _ _ hu hw p' q' h'
      exact ⟨x, y, pl, by rw [at_cons _ hu]; exact h1, by rw [at_cons _ hw]; exact h2, h3⟩
  | @cut a b place ca cb h0 hn he hk ih =>
    rintro p q (⟨rfl, rfl⟩ | ⟨i, p', q', hi, rfl, rfl, h'⟩)
    · exact ⟨_, _, _, rfl, rfl, .cut ca cb h0 hn he hk⟩
    · have hu : a.kids[i]? = some (a.kids[i]'(by omega)) := List.getElem?_eq_getElem _
      have hw : b.kids[i]? = some (b.kids[i]'(by omega)) := List.getElem?_eq_getElem _
      obtain ⟨x, y, pl, h1, h2, h3⟩ := ih i _ _ hu hw p' q' h'
      exact ⟨x, y, pl, by rw [at_cons _ hu]; exact h1, by rw [at_cons _ hw]; exact h2, h3⟩
  | @moved a b s t place ca cb hn hs ht hst he hk hne ih =>
    rintro p q (⟨rfl, rfl⟩ | ⟨k, p', q', hk', rfl, rfl, h'⟩)
    · exact ⟨_, _, _, rfl, rfl, .moved ca cb hn hs ht hst he hk hne⟩
    · have hu : a.kids[beyond s k]? = some (a.kids[beyond s k]'(by rcases beyond_cases s k with g | g <;> omega)) := List.getElem?_eq_getElem _
      have hw : b.kids[beyond t k]? = some (b.kids[beyond t k]'(by rcases beyond_cases t k with g | g <;> omega)) := List.getElem?_eq_getElem _
      obtain ⟨x, y, pl, h1, h2, h3⟩ := ih k _ _ hu hw p' q' h'
      exact ⟨x, y, pl, by rw [at_cons _ hu]; exact h1, by rw [at_cons _ hw]; exact h2, h3⟩

theorem edited_shape {text : Json → Bytes} {x y : Elem} {place : Path → Path → Prop} (h : Edited text x y place) :
    (∃ v v', x = .value v ∧ y = .value v' ∧ ((IsContainer v ∧ IsContainer v') ∨ (¬ IsContainer v ∧ ¬ IsContainer v'))) ∨ ∃ k v v' place', x = .entry k v ∧ y = .entry k v' ∧ Edited text (.value v) (.value v') place' := by
  have hv : ∀ {e : Elem}, e.isContainer = true → ∃ v, e = .value v ∧ IsContainer v := fun {e} he => by
    match e with
    | .value v => exact ⟨v, rfl, (container_iff v).mp he⟩
    | .entry k v => cases he
  have hcc : ∀ {e e' : Elem}, e.isContainer = true → e'.isContainer = true →
      ∃ v v', e = .value v ∧ e' = .value v' ∧ ((IsContainer v ∧ IsContainer v') ∨ (¬ IsContainer v ∧ ¬ IsContainer v')) := fun h1 h2 => by
    obtain ⟨v, rfl, hv1⟩ := hv h1
    obtain ⟨v', rfl, hv2⟩ := hv h2
    exact ⟨v, v', rfl, rfl, .inl ⟨hv1, hv2⟩⟩
  cases h with
  | same =>
    match x with
    | .value v => exact .inl ⟨v, v, rfl, rfl, (Classical.em (IsContainer v)).imp (fun h => ⟨h, h⟩) fun h => ⟨h, h⟩⟩
    | .entry k v => exact .inr ⟨k, v, v, _, rfl, rfl, .same _⟩
  | primitive h1 h2 => exact .inl ⟨_, _, rfl, rfl, .inr ⟨h1, h2⟩⟩
  | member h => exact .inr ⟨_, _, _, _, rfl, rfl, h⟩
  | added ca cb => exact .inl (hcc ca cb)
  | removed ca cb => exact .inl (hcc ca cb)
  | changed ca cb => exact .inl (hcc ca cb)
  | appended ca cb => exact .inl (hcc ca cb)
  | cut ca cb => exact .inl (hcc ca cb)
  | moved ca cb => exact .inl (hcc ca cb)

theorem edited_mark {text : Json → Bytes} {x y : Elem} {place : Path → Path → Prop} {c : Nat} (h : Edited text x y place) (hf : Facing text x y c) :
    ∃ m, PlaceMark text x y m ∧ signsFor (decide (c = 0)) x y = (m, m) ∧ (x = y → m = .equ) ∧ (Matched text x y ↔ m ≠ .add) := by
  rcases edited_shape h with ⟨v, v', rfl, rfl, hcc⟩ | ⟨k, v, v', pl, rfl, rfl, hv⟩
  · rcases hcc with ⟨hc, hc'⟩ | ⟨p1, p2⟩
    · have hb := (container_iff v).mpr hc
      have hb' := (container_iff v').mpr hc'
      have hz := edited_zero h (.inr (.inl hb))
      cases facing_unique hf hz
      exact ⟨.equ, .container hc hc', by unfold signsFor; rw [if_pos hb, if_pos hb']; rfl, fun _ => rfl, fun _ => by decide, fun _ => .inl ⟨hb, hb', hz⟩⟩
    · have hb : ¬ (Elem.value v).isContainer = true := fun h => p1 ((container_iff v).mp h)
      have hb' : ¬ (Elem.value v').isContainer = true := fun h => p2 ((container_iff v').mp h)
      have hs : signsFor (decide (c = 0)) (.value v) (.value v') = if sameKind v v' then if decide (c = 0) then (.equ, .equ) else (.mod, .mod) else (.add, .add) := by
        unfold signsFor; rw [if_neg hb, if_neg hb']; rfl
      rw [hs]
      cases hk : sameKind v v' with
      | false =>
        refine ⟨.add, .otherType p1 p2 hk, rfl, fun e => ?_, fun hm => ?_, fun hm => absurd rfl hm⟩
        · cases e
          have := comparable_self (.value v) (by simpa using hb)
          rw [show comparable (.value v) (.value v) = sameKind v v from rfl, hk] at this
          cases this
        · rcases hm with ⟨hm, _⟩ | hm
          · exact absurd hm hb
          · rw [show comparable (.value v) (.value v') = sameKind v v' from rfl, hk] at hm; cases hm
      | true =>
        have hcm : comparable (.value v) (.value v') = true := hk
        by_cases hn : Near (text v) (text v')
        · cases facing_unique hf (.near p1 p2 hn)
          exact ⟨.equ, .near p1 p2 hk hn, rfl, fun _ => rfl, fun _ => by decide, fun _ => .inr hcm⟩
        · cases facing_unique hf (.far p1 p2 hn)
          exact ⟨.mod, .far p1 p2 hk hn, rfl, fun e => by cases e; exact absurd (.inl rfl) hn, fun _ => by decide, fun _ => .inr hcm⟩
  · have hs : signsFor (decide (c = 0)) (.entry k v) (.entry k v') = if decide (c = 0) then (.equ, .equ) else (.mod, .mod) := rfl
    rw [hs]
    have hcm : comparable (.entry k v) (.entry k v') = true := rfl
    rcases edited_shape hv with ⟨w, w', e, e', hcc⟩ | ⟨k, w, w', pl, e, _⟩
    · cases e
      cases e'
      rcases hcc with ⟨hc, hc'⟩ | ⟨p1, p2⟩
      · cases facing_unique hf (edited_zero h (.inr (.inr ⟨k, v, rfl, hc⟩)))
        exact ⟨.equ, .memberKept (.inl ⟨hc, hc'⟩), rfl, fun _ => rfl, fun _ => by decide, fun _ => .inr hcm⟩
      · by_cases hn : Near (text v) (text v')
        · cases facing_unique hf (.sameKey (.near p1 p2 hn))
          exact ⟨.equ, .memberKept (.inr ⟨p1, p2, hn⟩), rfl, fun _ => rfl, fun _ => by decide, fun _ => .inr hcm⟩
        · cases facing_unique hf (.sameKey (.far p1 p2 hn))
          exact ⟨.mod, .memberChanged p1 p2 hn, rfl, fun e => by cases e; exact absurd (.inl rfl) hn, fun _ => by decide, fun _ => .inr hcm⟩
    · cases e

/-- **C139, for the edits of `Edited`.** What was and what is in the same place have the same sign (`PlaceMark`): equal if it is a container or close to what it was, in particular if nothing was changed in it; modified; or added if its type
changed. They are each other's counterparts, unless the type of a member's value was changed; nothing else is anything's counterpart. Everything that was removed or inserted is marked as added. -/
theorem C139_edit_partial (fmt : Bytes → Bytes) (a b : Json) (t : Table) (h : diff fmt a b = some t) (sa : ShortTexts (·.stringify fmt) (.value a)) (sb : ShortTexts (·.stringify fmt) (.value b))
    (hr : RoomFor (·.stringify fmt) (.value a) (.value b)) (order : List (Ptr × Ptr)) (hp : order.Perm t.equivalences) (place : Path → Path → Prop) (he : Edited (·.stringify fmt) (.value a) (.value b) place) :
    (∀ p q, place p q → ∃ x y m, (Elem.value a).at p = some x ∧ (Elem.value b).at q = some y ∧ PlaceMark (·.stringify fmt) x y m ∧ markOf t (.left p) = m ∧ markOf t (.right q) = m ∧ (x = y → m = .equ) ∧
      (scan order (.left p) = some (.right q) ↔ IsChild (.value a) p ∨ m ≠ .add)) ∧
    (∀ p q, scan order (.left p) = some (.right q) → place p q) ∧ (∀ p q, scan order (.right q) = some (.left p) ↔ scan order (.left p) = some (.right q)) ∧
    (∀ p, (∀ q, ¬ place p q) → markOf t (.left p) = .add) ∧ ∀ q, (∀ p, ¬ place p q) → markOf t (.right q) = .add := by
  obtain ⟨a1, a2, a3, a4, a5⟩ := C135_comparison fmt a b t h sa sb hr order hp
  have ho := edited_opposed he
  simp only [ho] at a1 a3 a4 a5
  refine ⟨fun p q hpq => ?_, fun p q hs => ((a1 p q).mp hs).1, a2, a4, a5⟩
  obtain ⟨x, y, pl, hx, hy, hxy⟩ := edited_place he p q hpq
  obtain ⟨x', y', c, e1, e2, hf, hs⟩ := a3 p q hpq
  rw [hx] at e1; cases e1
  rw [hy] at e2; cases e2
  obtain ⟨m, m1, m2, m3, m4⟩ := edited_mark hxy hf
  rw [m2] at hs
  refine ⟨x, y, m, hx, hy, m1, congrArg Prod.fst hs, congrArg Prod.snd hs, m3, ?_⟩
  rw [a1, ← m4]
  refine ⟨fun ⟨_, h2⟩ => h2.imp id ?_, fun h2 => ⟨hpq, h2.imp id fun h3 => ⟨x, y, hx, hy, h3⟩⟩⟩
  rintro ⟨x', y', e1, e2, hm⟩
  rw [hx] at e1; cases e1
  rw [hy] at e2; cases e2
  exact hm

theorem kept_symm {text : Json → Bytes} {x y : Elem} {place : Path → Path → Prop} (h : Edited text x y place) (hk : KeptAs x y) : KeptAs y x := by
  rcases hk with rfl | hk
  · exact .inl rfl
  · right
    rcases edited_shape h with ⟨v, v', rfl, rfl, hcc⟩ | ⟨k, v, v', pl, rfl, rfl, hv⟩
    · rcases hk with hk | ⟨_, _, e, _⟩
      · rcases hcc with hcc | hcc
        · exact .inl ((container_iff v').mpr hcc.2)
        · exact absurd ((container_iff v).mp hk) hcc.1
      · cases e
    · rcases hk with hk | ⟨_, _, e, hc⟩
      · cases hk
      · cases e
        rcases edited_shape hv with ⟨w, w', e, e', hcc⟩ | ⟨_, _, _, _, e, _⟩
        · cases e
          cases e'
          rcases hcc with hcc | hcc
          · exact .inr ⟨k, v', rfl, hcc.2⟩
          · exact absurd hc hcc.1
        · cases e

/-- Edits can be undone: what was inserted is removed. -/
theorem edited_symm {text : Json → Bytes} {x y : Elem} {place : Path → Path → Prop} (h : Edited text x y place) : ∃ place', Edited text y x place' ∧ ∀ p q, place' q p ↔ place p q := by
  induction h with
  | same x => exact ⟨_, .same x, fun p q => ⟨by rintro ⟨rfl, h⟩; exact ⟨rfl, h⟩, by rintro ⟨rfl, h⟩; exact ⟨rfl, h⟩⟩⟩
  | primitive h1 h2 => exact ⟨_, .primitive h2 h1, fun p q => and_comm⟩
  | member _ ih =>
    obtain ⟨pl, h1, h2⟩ := ih
    refine ⟨_, .member h1, fun p q => or_congr and_comm ⟨?_, ?_⟩⟩
    · rintro ⟨q', p', rfl, rfl, h⟩; exact ⟨p', q', rfl, rfl, (h2 _ _).mp h⟩
    · rintro ⟨p', q', rfl, rfl, h⟩; exact ⟨q', p', rfl, rfl, (h2 _ _).mpr h⟩
  | @added a b f place ca cb mono h0 hin he hk hnew ih =>
    have hch : ∀ i, ∃ pl : Path → Path → Prop, ∀ u w, a.kids[i]? = some u → b.kids[f i]? = some w → Edited text w u pl ∧ ∀ p q, pl q p ↔ place i p q := by
      intro i
      by_cases hi : i < a.kids.length
      · obtain ⟨pl, h1, h2⟩ := ih i _ _ (List.getElem?_eq_getElem hi) (List.getElem?_eq_getElem (hin i hi))
        refine ⟨pl, fun u w hu hw => ?_⟩
        rw [List.getElem?_eq_getElem hi] at hu; cases hu
        rw [List.getElem?_eq_getElem (hin i hi)] at hw; cases hw
        exact ⟨h1, h2⟩
      · exact ⟨fun _ _ => True, fun u w hu => absurd (List.getElem?_eq_some_iff.mp hu).1 hi⟩
    refine ⟨_, .removed (place := fun i => (hch i).choose) cb ca mono h0 hin (fun i u w hu hw => ((hch i).choose_spec w u hw hu).1) (fun i u w hu hw => kept_symm (he i w u hw hu) (hk i w u hw hu))
      (fun i j u w hu hw hno hz => hnew j i w u hw hu hno (facing_symm hz)), fun p q => or_congr and_comm ⟨?_, ?_⟩⟩
    · rintro ⟨i, q', p', hi, rfl, rfl, h⟩
      exact ⟨i, p', q', hi, rfl, rfl, (((hch i).choose_spec _ _ (List.getElem?_eq_getElem hi) (List.getElem?_eq_getElem (hin i hi))).2 _ _).mp h⟩
    · rintro ⟨i, p', q', hi, rfl, rfl, h⟩
      exact ⟨i, q', p', hi, rfl, rfl, (((hch i).choose_spec _ _ (List.getElem?_eq_getElem hi) (List.getElem?_eq_getElem (hin i hi))).2 _ _).mpr h⟩
  | @removed a b f place ca cb mono h0 hin he hk hnew ih =>
    have hch : ∀ i, ∃ pl : Path → Path → Prop, ∀ u w, a.kids[f i]? = some u → b.kids[i]? = some w → Edited text w u pl ∧ ∀ p q, pl q p ↔ place i p q := by
      intro i
      by_cases hi : i < b.kids.length
      · obtain ⟨pl, h1, h2⟩ := ih i _ _ (List.getElem?_eq_getElem (hin i hi)) (List.getElem?_eq_getElem hi)
        refine ⟨pl, fun u w hu hw => ?_⟩
        rw [List.getElem?_eq_getElem (hin i hi)] at hu; cases hu
        rw [List.getElem?_eq_getElem hi] at hw; cases hw
        exact ⟨h1, h2⟩
      · exact ⟨fun _ _ => True, fun u w _ hw => absurd (List.getElem?_eq_some_iff.mp hw).1 hi⟩
    refine ⟨_, .added (place := fun i => (hch i).choose) cb ca mono h0 hin (fun i u w hu hw => ((hch i).choose_spec w u hw hu).1) (fun i u w hu hw => kept_symm (he i w u hw hu) (hk i w u hw hu))
      (fun i j u w hu hw hno hz => hnew j i w u hw hu hno (facing_symm hz)), fun p q => or_congr and_comm ⟨?_, ?_⟩⟩
    · rintro ⟨i, q', p', hi, rfl, rfl, h⟩
      exact ⟨i, p', q', hi, rfl, rfl, (((hch i).choose_spec _ _ (List.getElem?_eq_getElem (hin i hi)) (List.getElem?_eq_getElem hi)).2 _ _).mp h⟩
    · rintro ⟨i, p', q', hi, rfl, rfl, h⟩
      exact ⟨i, q', p', hi, rfl, rfl, (((hch i).choose_spec _ _ (List.getElem?_eq_getElem (hin i hi)) (List.getElem?_eq_getElem hi)).2 _ _).mpr h⟩
  | @changed a b place ca cb hn he hex hor ih =>
    have hin : ∀ i < a.kids.length, i < b.kids.length := fun i hi => by omega
    have hch : ∀ i, ∃ pl : Path → Path → Prop, ∀ u w, a.kids[i]? = some u → b.kids[i]? = some w → Edited text w u pl ∧ ∀ p q, pl q p ↔ place i p q := by
      intro i
      by_cases hi : i < a.kids.length
      · obtain ⟨pl, h1, h2⟩ := ih i _ _ (List.getElem?_eq_getElem hi) (List.getElem?_eq_getElem (hin i hi))
        refine ⟨pl, fun u w hu hw => ?_⟩
        rw [List.getElem?_eq_getElem hi] at hu; cases hu
        rw [List.getElem?_eq_getElem (hin i hi)] at hw; cases hw
        exact ⟨h1, h2⟩
      · exact ⟨fun _ _ => True, fun u w hu => absurd (List.getElem?_eq_some_iff.mp hu).1 hi⟩
    refine ⟨_, .changed (place := fun i => (hch i).choose) cb ca hn.symm (fun i u w hu hw => ((hch i).choose_spec w u hw hu).1) ?_ (hor.imp ?_ ?_), fun p q => or_congr and_comm ⟨?_, ?_⟩⟩
    · obtain ⟨i, u, w, hu, hw, hk⟩ := hex
      exact ⟨i, w, u, hw, hu, kept_symm (he i u w hu hw) hk⟩
    · intro h i j u w u' w' hij hu hw hu' hw'
      exact (h i j w u w' u' hij hw hu hw' hu').imp (kept_symm (he i w u hw hu)) (kept_symm (he j w' u' hw' hu'))
    · intro h i j u w hij hu hw hz
      exact h j i w u (Ne.symm hij) hw hu (facing_symm hz)
    · rintro ⟨i, q', p', hi, rfl, rfl, h⟩
      have hi' : i < a.kids.length := by omega
      exact ⟨i, p', q', hi', rfl, rfl, (((hch i).choose_spec _ _ (List.getElem?_eq_getElem hi') (List.getElem?_eq_getElem (hin i hi'))).2 _ _).mp h⟩
    · rintro ⟨i, p', q', hi, rfl, rfl, h⟩
      exact ⟨i, q', p', by omega, rfl, rfl, (((hch i).choose_spec _ _ (List.getElem?_eq_getElem hi) (List.getElem?_eq_getElem (hin i hi))).2 _ _).mpr h⟩
  | @appended a b place ca cb h0 hn he hk ih =>
    have hina : ∀ i < a.kids.length, i < a.kids.length := fun i hi => by omega
    have hinb : ∀ i < a.kids.length, i < b.kids.length := fun i hi => by omega
    have hch : ∀ i, ∃ pl : Path → Path → Prop, ∀ u w, a.kids[i]? = some u → b.kids[i]? = some w → Edited text w u pl ∧ ∀ p q, pl q p ↔ place i p q := by
      intro i
      by_cases hi : i < a.kids.length
      · obtain ⟨pl, h1, h2⟩ := ih i _ _ (List.getElem?_eq_getElem (hina i hi)) (List.getElem?_eq_getElem (hinb i hi))
        refine ⟨pl, fun u w hu hw => ?_⟩
        rw [List.getElem?_eq_getElem (hina i hi)] at hu; cases hu
        rw [List.getElem?_eq_getElem (hinb i hi)] at hw; cases hw
        exact ⟨h1, h2⟩
      · exact ⟨fun _ _ => True, fun u w hu hw => absurd (List.getElem?_eq_some_iff.mp hu).1 hi⟩
    refine ⟨_, .cut (place := fun i => (hch i).choose) cb ca h0 hn (fun i u w hu hw => ((hch i).choose_spec w u hw hu).1) (fun i u w hu hw => kept_symm (he i w u hw hu) (hk i w u hw hu)), fun p q => or_congr and_comm ⟨?_, ?_⟩⟩
    · rintro ⟨i, q', p', hi, rfl, rfl, h⟩
      exact ⟨i, p', q', hi, rfl, rfl, (((hch i).choose_spec _ _ (List.getElem?_eq_getElem (hina i hi)) (List.getElem?_eq_getElem (hinb i hi))).2 _ _).mp h⟩
    · rintro ⟨i, p', q', hi, rfl, rfl, h⟩
      exact ⟨i, q', p', hi, rfl, rfl, (((hch i).choose_spec _ _ (List.getElem?_eq_getElem (hina i hi)) (List.getElem?_eq_getElem (hinb i hi))).2 _ _).mpr h⟩
  | @cut a b place ca cb h0 hn he hk ih =>
    have hina : ∀ i < b.kids.length, i < a.kids.length := fun i hi => by omega
    have hinb : ∀ i < b.kids.length, i < b.kids.length := fun i hi => by omega
    have hch : ∀ i, ∃ pl : Path → Path → Prop, ∀ u w, a.kids[i]? = some u → b.kids[i]? = some w → Edited text w u pl ∧ ∀ p q, pl q p ↔ place i p q := by
      intro i
      by_cases hi : i < b.kids.length
      · obtain ⟨pl, h1, h2⟩ := ih i _ _ (List.getElem?_eq_getElem (hina i hi)) (List.getElem?_eq_getElem (hinb i hi))
        refine ⟨pl, fun u w hu hw => ?_⟩
        rw [List.getElem?_eq_getElem (hina i hi)] at hu; cases hu
        rw [List.getElem?_eq_getElem (hinb i hi)] at hw; cases hw
        exact ⟨h1, h2⟩
      · exact ⟨fun _ _ => True, fun u w hu hw => absurd (List.getElem?_eq_some_iff.mp hw).1 hi⟩
    refine ⟨_, .appended (place := fun i => (hch i).choose) cb ca h0 hn (fun i u w hu hw => ((hch i).choose_spec w u hw hu).1) (fun i u w hu hw => kept_symm (he i w u hw hu) (hk i w u hw hu)), fun p q => or_congr and_comm ⟨?_, ?_⟩⟩
    · rintro ⟨i, q', p', hi, rfl, rfl, h⟩
      exact ⟨i, p', q', hi, rfl, rfl, (((hch i).choose_spec _ _ (List.getElem?_eq_getElem (hina i hi)) (List.getElem?_eq_getElem (hinb i hi))).2 _ _).mp h⟩
    · rintro ⟨i, p', q', hi, rfl, rfl, h⟩
      exact ⟨i, q', p', hi, rfl, rfl, (((hch i).choose_spec _ _ (List.getElem?_eq_getElem (hina i hi)) (List.getElem?_eq_getElem (hinb i hi))).2 _ _).mpr h⟩
  | @moved a b s t place ca cb hn hs ht hst he hk hne ih =>
    have hina : ∀ k, k + 1 < a.kids.length → beyond s k < a.kids.length := fun k hk' => by rcases beyond_cases s k with g | g <;> omega
    have hinb : ∀ k, k + 1 < a.kids.length → beyond t k < b.kids.length := fun k hk' => by rcases beyond_cases t k with g | g <;> omega
    have hch : ∀ k, ∃ pl : Path → Path → Prop, ∀ u w, a.kids[beyond s k]? = some u → b.kids[beyond t k]? = some w → Edited text w u pl ∧ ∀ p q, pl q p ↔ place k p q := by
      intro k
      by_cases hk' : k + 1 < a.kids.length
      · obtain ⟨pl, h1, h2⟩ := ih k _ _ (List.getElem?_eq_getElem (hina k hk')) (List.getElem?_eq_getElem (hinb k hk'))
        refine ⟨pl, fun u w hu hw => ?_⟩
        rw [List.getElem?_eq_getElem (hina k hk')] at hu; cases hu
        rw [List.getElem?_eq_getElem (hinb k hk')] at hw; cases hw
        exact ⟨h1, h2⟩
      · refine ⟨fun _ _ => True, fun u w hu hw => ?_⟩
        have h1 := (List.getElem?_eq_some_iff.mp hu).1
        rcases beyond_cases s k with g | g <;> omega
    refine ⟨_, .moved (s := t) (t := s) (place := fun i => (hch i).choose) cb ca hn.symm (by omega) (by omega) hst.symm (fun k u w hu hw => ((hch k).choose_spec w u hw hu).1) (fun k u w hu hw => kept_symm (he k w u hw hu) (hk k w u hw hu))
      (fun i j u w hu hw hno hij hz => hne j i w u hw hu (fun k hk => hno k hk.symm) (fun h => hij h.symm) (facing_symm hz)), fun p q => or_congr and_comm ⟨?_, ?_⟩⟩
    · rintro ⟨k, q', p', hk', rfl, rfl, h⟩
      have hk'' : k + 1 < a.kids.length := by omega
      exact ⟨k, p', q', hk'', rfl, rfl, (((hch k).choose_spec _ _ (List.getElem?_eq_getElem (hina k hk'')) (List.getElem?_eq_getElem (hinb k hk''))).2 _ _).mp h⟩
    · rintro ⟨k, p', q', hk', rfl, rfl, h⟩
      exact ⟨k, q', p', by omega, rfl, rfl, (((hch k).choose_spec _ _ (List.getElem?_eq_getElem (hina k hk')) (List.getElem?_eq_getElem (hinb k hk'))).2 _ _).mpr h⟩

/-- **C133, for edits**: comparing an edited document with the original one shows the same as comparing the original one with it, with left and right exchanged. -/
theorem C133_exchange_edit_partial (fmt : Bytes → Bytes) (a b : Json) (t t' : Table) (h : diff fmt a b = some t) (h' : diff fmt b a = some t')
    (sa : ShortTexts (·.stringify fmt) (.value a)) (sb : ShortTexts (·.stringify fmt) (.value b)) (hr : RoomFor (·.stringify fmt) (.value a) (.value b))
    (place : Path → Path → Prop) (he : Edited (·.stringify fmt) (.value a) (.value b) place) (order order' : List (Ptr × Ptr)) (hp : order.Perm t.equivalences) (hp' : order'.Perm t'.equivalences) :
    (∀ p q, scan order (.left p) = some (.right q) ↔ scan order' (.left q) = some (.right p)) ∧
    (∀ p q, scan order (.right q) = some (.left p) ↔ scan order' (.right p) = some (.left q)) ∧
    (∀ p, markOf t (.left p) = markOf t' (.right p)) ∧ (∀ q, markOf t (.right q) = markOf t' (.left q)) := by
  obtain ⟨place', he', hpl⟩ := edited_symm he
  exact exchanged fmt a b t t' h h' sa sb hr (fun p q => by rw [edited_opposed he, edited_opposed he', hpl]) order order' hp hp'

/-- A document, and the same one with an array inserted into an array in it and with a changed member. -/
def before139 : Json := .obj [([97], .arr [.int 1, .int 2]), ([98], .int 222)]
def after139 : Json := .obj [([97], .arr [.int 1, .arr [.int 7], .int 2]), ([98], .int 888)]

theorem edited139 : ∃ place, Edited (·.stringify id) (.value before139) (.value after139) place ∧ place [0, 0, 1] [0, 0, 2] ∧ place [1, 0] [1, 0] ∧ ∀ p, ¬ place p [0, 0, 1] := by
  have h1 := Edited.added (text := (·.stringify id)) (a := .value (.arr [.int 1, .int 2])) (b := .value (.arr [.int 1, .arr [.int 7], .int 2])) (f := fun i => if i = 0 then 0 else i + 1)
    (place := fun _ p q => p = [] ∧ q = []) rfl rfl (by
      intro i j hij
      by_cases hi : i = 0
      · rw [if_pos hi, if_neg (by omega)]; omega
      · rw [if_neg hi, if_neg (by omega)]; omega) (by decide) (by decide) (by
      intro i u w hu hw
      match i, hu, hw with
      | 0, hu, hw => cases hu; cases hw; exact .primitive (fun h => h) (fun h => h)
      | 1, hu, hw => cases hu; cases hw; exact .primitive (fun h => h) (fun h => h)
      | i + 2, hu, _ => simp [Elem.kids] at hu) (by
      intro i u w hu hw
      match i, hu, hw with
      | 0, hu, hw => cases hu; cases hw; exact .inl rfl
      | 1, hu, hw => cases hu; cases hw; exact .inl rfl
      | i + 2, hu, _ => simp [Elem.kids] at hu) (by
      intro i j u w hu hw hno hz
      have hj : j = 1 := by
        have h3 := (List.getElem?_eq_some_iff.mp hw).1
        have h4 := hno 0 (by decide)
        have h5 := hno 1 (by decide)
        simp [Elem.kids] at h3 h4 h5
        omega
      subst hj
      cases hw
      match i, hu with
      | 0, hu => cases hu; cases facing_unique hz (.containerRight rfl rfl)
      | 1, hu => cases hu; cases facing_unique hz (.containerRight rfl rfl)
      | i + 2, hu => simp [Elem.kids] at hu)
  refine ⟨_, Edited.changed (place := fun i => match i with
    | 0 => fun p q => (p = [] ∧ q = []) ∨ ∃ p' q', p = 0 :: p' ∧ q = 0 :: q' ∧ ((p' = [] ∧ q' = []) ∨ ∃ i p'' q'', i < 2 ∧ p' = i :: p'' ∧ q' = (if i = 0 then 0 else i + 1) :: q'' ∧ (p'' = [] ∧ q'' = []))
    | _ => fun p q => (p = [] ∧ q = []) ∨ ∃ p' q', p = 0 :: p' ∧ q = 0 :: q' ∧ (p' = [] ∧ q' = [])) rfl rfl rfl (fun i u w hu hw => ?_) ⟨0, _, _, rfl, rfl, .inr (.inr ⟨_, _, rfl, trivial⟩)⟩ (.inr ?_), ?_, ?_, ?_⟩
  · match i, hu, hw with
    | 0, hu, hw => cases hu; cases hw; exact .member h1
    | 1, hu, hw => cases hu; cases hw; exact .member (.primitive (fun h => h) (fun h => h))
    | i + 2, hu, hw => simp [before139, Elem.kids] at hu
  · intro i j u w hij hu hw hz
    match i, j, hij, hu, hw with
    | 0, 0, hij, _, _ => exact absurd rfl hij
    | 1, 1, hij, _, _ => exact absurd rfl hij
    | 0, 1, _, hu, hw => cases hu; cases hw; cases facing_unique hz (.otherKey (by decide))
    | 1, 0, _, hu, hw => cases hu; cases hw; cases facing_unique hz (.otherKey (by decide))
    | i + 2, _, _, hu, _ => simp [before139, Elem.kids] at hu
    | 0, j + 2, _, _, hw => simp [after139, Elem.kids] at hw
    | 1, j + 2, _, _, hw => simp [after139, Elem.kids] at hw
  · exact .inr ⟨0, _, _, by decide, rfl, rfl, .inr ⟨_, _, rfl, rfl, .inr ⟨1, _, _, by omega, rfl, rfl, rfl, rfl⟩⟩⟩
  · exact .inr ⟨1, _, _, by decide, rfl, rfl, .inr ⟨_, _, rfl, rfl, rfl, rfl⟩⟩
  · rintro p (⟨_, e⟩ | ⟨i, p', q', _, _, e, h⟩)
    · cases e
    · cases e
      rcases h with ⟨_, e⟩ | ⟨_, _, _, e, h⟩
      · cases e
      · cases e
        rcases h with ⟨_, e⟩ | ⟨i, _, _, hi, _, e, _⟩
        · cases e
        · simp only [List.cons.injEq] at e
          have := e.1
          by_cases h0 : i = 0
          · rw [if_pos h0] at this; omega
          · rw [if_neg h0] at this; omega

/-- The hypotheses are met. -/
example : ∃ t, diff id before139 after139 = some t ∧ ShortTexts (·.stringify id) (.value before139) ∧ ShortTexts (·.stringify id) (.value after139) ∧
    RoomFor (·.stringify id) (.value before139) (.value after139) ∧ (∃ place, Edited (·.stringify id) (.value before139) (.value after139) place ∧ place [0, 0, 1] [0, 0, 2] ∧ place [1, 0] [1, 0] ∧ ∀ p, ¬ place p [0, 0, 1]) ∧
    markOf t (.left [0, 0, 1]) = .equ ∧ scan t.equivalences (.left [0, 0, 1]) = some (.right [0, 0, 2]) ∧ markOf t (.right [0, 0, 1]) = .add ∧ markOf t (.left [1, 0]) = .mod := by
  obtain ⟨t, h1, h2⟩ := any_some (o := diff id before139 after139) (p := fun t => markOf t (.left [0, 0, 1]) = .equ ∧ scan t.equivalences (.left [0, 0, 1]) = some (.right [0, 0, 2]) ∧
    markOf t (.right [0, 0, 1]) = .add ∧ markOf t (.left [1, 0]) = .mod) (by decide +kernel)
  have ma := modest_spec (fmt := id) (n := 6) (e := .value before139) (by decide +kernel)
  have mb := modest_spec (fmt := id) (n := 6) (e := .value after139) (by decide +kernel)
  exact ⟨t, h1, ma.1, mb.1, room_small ma.2 mb.2, edited139, h2⟩

/-- And those of C133: the comparison the other way round. -/
example : ∃ t', diff id after139 before139 = some t' ∧ markOf t' (.right [0, 0, 1]) = .equ ∧ markOf t' (.left [0, 0, 1]) = .add :=
  any_some (o := diff id after139 before139) (p := fun t => markOf t (.right [0, 0, 1]) = .equ ∧ markOf t (.left [0, 0, 1]) = .add) (by decide +kernel)

end Verif.Props
