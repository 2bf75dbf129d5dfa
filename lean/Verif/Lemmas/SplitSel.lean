import Verif.Lemmas.SplitOutline
import Verif.Lemmas.SplitMarks
/-!
# The selection on the screen of the diff view
-/
namespace Verif.Lemmas.Split
open Verif.Model Verif.Model.Diff Verif.Model.Split Verif.Spec.SplitView
open Verif.Model.Tui (getNbLines hasReachedBottom)

/-- A selection is also the last one. -/
def SelLast (s : St) : Prop := (∀ e, s.first.sel = some e → s.first.last = some e) ∧ ∀ e, s.second.sel = some e → s.second.last = some e

theorem selLast_keeps {s t : St} (h : SelLast s) (h0 : Keeps s.first t.first) (h1 : Keeps s.second t.second) : SelLast t := by
  unfold SelLast
  rw [h0.1, h0.2.1, h1.1, h1.2.1]
  exact h

theorem selLast_set (env : Env) (e : Option Ptr) (s : St) : SelLast (setSelection env e s) := by
  have hf : ∀ w : Win, ∀ q, (follow env e w).sel = some q → (follow env e w).last = some q := by
    intro w q h
    unfold follow at h ⊢
    cases he : e.bind env.equiv with
    | none => rw [he] at h; cases h
    | some r => rw [he] at h; exact h
  unfold setSelection
  split
  · exact ⟨fun q h => h, hf _⟩
  · exact ⟨hf _, fun q h => h⟩

theorem selLast_message {env : Env} {n : Nat} {s t : St} (h : SelLast s) (hm : redrawMessage env n s = some (.nextInput t)) : SelLast t := by
  obtain ⟨k0, k1, _⟩ := message_spec hm
  exact selLast_keeps h k0 k1

theorem selLast_key {env : Env} {n : Nat} {name : Bytes} {pat : Option Search.Pattern} {s t : St} {a : Answer} (h : SelLast s) (hs2 : s.selected < 2)
    (he : evalKey env n name pat s = some a) (ha : a = .redraw t ∨ a = .nextInput t) : SelLast t := by
  have hj : ∀ s0 : St, SelLast s0 → Jump env n s0 a → SelLast t := by
    intro s0 h0 hj
    cases hj with
    | nothing _ hm =>
      rcases ha with rfl | rfl
      · exact absurd hm message_not_redraw
      · exact selLast_message h0 hm
    | next _ => rcases ha with ha | ha <;> cases ha; exact selLast_set env _ s0
    | @wrap q _ _ hm =>
      rcases ha with rfl | rfl
      · exact absurd hm message_not_redraw
      · exact selLast_message (s := { setSelection env (some q) s0 with collapsed := unfold q s0.collapsed }) (selLast_set env _ s0) hm
  rcases key_cases he with ⟨_, _, ho⟩ | ⟨_, hs⟩ | ⟨_, hj'⟩
  · cases ho with
    | quit => rcases ha with ha | ha <;> cases ha
    | crash => rcases ha with ha | ha <;> cases ha
    | stay => rcases ha with ha | ha <;> cases ha; exact h
    | select _ => rcases ha with ha | ha <;> cases ha; exact selLast_set env _ s
    | fold _ => rcases ha with ha | ha <;> cases ha; exact h
    | window d c hd =>
      rcases window_spec env d c s hs2 hd with hw | ⟨v, rfl, ⟨hsel, hw⟩ | hw⟩
      · rw [hw] at ha; rcases ha with ha | ha <;> cases ha; exact h
      · rw [hw] at ha; rcases ha with ha | ha <;> cases ha; exact h
      · rw [hw] at ha; rcases ha with ha | ha <;> cases ha; exact selLast_set env _ _
  · rcases search_spec hs with ⟨_, rfl⟩ | ⟨p, _, rfl | hj'⟩
    · rcases ha with ha | ha <;> cases ha; exact h
    · rcases ha with ha | ha <;> cases ha; exact h
    · refine hj _ ?_ hj'
      unfold SelLast St.set St.active St.at
      dsimp only
      split <;> exact h
  · exact hj _ h hj'

theorem selLast_reached {env : Env} {n k cols rows : Nat} {ok : St → Input → Prop} {s : St} (h : Reached env n k cols rows ok s) : SelLast s := by
  induction h with
  | start hs =>
    obtain ⟨k0, k1, _⟩ := settle_keeps hs
    exact selLast_keeps (selLast_set env _ _) k0 k1
  | @input s t i hr _ hs ih =>
    have hlt := (has_reached hr).lt
    rcases step_cases hs with ⟨c, r, _, hst⟩ | ⟨name, pat, _, ⟨s', he, hst⟩ | he⟩
    · obtain ⟨k0, k1, _⟩ := settle_keeps hst
      exact selLast_keeps (s := { s with width := c / 2, height := less r 2 }) ih k0 k1
    · obtain ⟨k0, k1, _⟩ := settle_keeps hst
      exact selLast_keeps (selLast_key ih hlt he (.inl rfl)) k0 k1
    · exact selLast_key ih hlt he (.inr rfl)

/-- Without searches, a state is what a completed drawing leaves. -/
theorem settled_reached {env : Env} {n k cols rows : Nat} {s : St} (h : Reached env n k cols rows noSearch s) : ∃ s0, settle env n k s0 = some (some s) := by
  induction h with
  | start hs => exact ⟨_, hs⟩
  | @input s t i _ hok hs ih =>
    rcases step_cases hs with ⟨c, r, _, hst⟩ | ⟨name, pat, hi, ⟨s', he, hst⟩ | he⟩
    · exact ⟨_, hst⟩
    · exact ⟨_, hst⟩
    · obtain ⟨hn1, hn2⟩ := hok name pat hi
      rcases key_cases he with ⟨_, _, ho⟩ | ⟨hn, _⟩ | ⟨hn, _⟩
      · generalize ha : Answer.nextInput t = a at ho
        cases ho with
        | quit => cases ha
        | crash _ => cases ha
        | stay => cases ha; exact ih
        | select _ => cases ha
        | fold _ => cases ha
        | window d c hd =>
          unfold changeWindow at ha
          split at ha
          · cases ha; exact ih
          · dsimp only at ha
            split at ha <;> cases ha
      · exact absurd hn hn1
      · exact absurd hn hn2

/-- The first text of an item is that of its element. -/
theorem prints_head {env : Env} {view : View} {side : Bool} {it : Item} {a : Print} (h : (prints env view side it).head? = some a) :
    a.who = ptr side it.path ∧ a.closing = it.closing := by
  unfold prints at h
  simp only at h
  split at h
  · next hc => cases h; exact ⟨rfl, hc.symm⟩
  · next hc =>
    have hc : it.closing = false := by simpa using hc
    rw [hc]
    split at h
    · cases h
    · split at h
      · cases h; exact ⟨rfl, rfl⟩
      split at h
      · cases h; exact ⟨rfl, rfl⟩
      split at h
      · cases h; exact ⟨rfl, rfl⟩
      · cases h; exact ⟨rfl, rfl⟩
    · split at h
      · split at h <;> (cases h; exact ⟨rfl, rfl⟩)
      · cases h; exact ⟨rfl, rfl⟩

/-- The texts of an item are those of its element, or of the value of an entry. -/
theorem prints_who {env : Env} {view : View} {side : Bool} {it : Item} {a : Print} (h : a ∈ prints env view side it) :
    (a.who = ptr side it.path ∧ a.closing = it.closing) ∨ ∃ q, parent a.who = some q ∧ env.isEntry q = true := by
  unfold prints at h
  simp only at h
  split at h
  · next hc => simp only [List.mem_singleton] at h; subst h; exact .inl ⟨rfl, hc.symm⟩
  · next hc =>
    have hc : it.closing = false := by simpa using hc
    rw [hc]
    split at h
    · cases h
    · next k v hv =>
      split at h
      · simp only [List.mem_singleton] at h; subst h; exact .inl ⟨rfl, rfl⟩
      split at h
      · simp only [List.mem_singleton] at h; subst h; exact .inl ⟨rfl, rfl⟩
      split at h
      · simp only [List.mem_singleton] at h; subst h; exact .inl ⟨rfl, rfl⟩
      · simp only [List.mem_cons, List.not_mem_nil, or_false] at h
        rcases h with rfl | rfl
        · exact .inl ⟨rfl, rfl⟩
        · refine .inr ⟨ptr side it.path, ?_, ?_⟩
          · cases side <;> simp [ptr, parent]
          · simp [Env.isEntry, elem_ptr, hv, Elem.isEntry]
    · split at h
      · split at h <;> (simp only [List.mem_singleton] at h; subst h; exact .inl ⟨rfl, rfl⟩)
      · simp only [List.mem_singleton] at h; subst h; exact .inl ⟨rfl, rfl⟩

/-- The selection is written, if it is a line of its own. -/
theorem sel_written {env : Env} {s : St} {v : Win} {side : Bool} {w : Win} {l : List Entry} {p : Path}
    (h : Shows env s.view v side false w l) (hl : w.last = some (ptr side p)) (hsel : w.sel = w.last)
    (hp : ∀ q, parent (ptr side p) = some q → env.isEntry q = false)
    (hline : ∃ a ∈ diffOutline env s side, a.elem = p ∧ a.closing = false) :
    ∃ c ∈ w.screen, c.who = ptr side p ∧ c.closing = false ∧ c.selected = true ∧ 1 ≤ c.row := by
  have hlast : v.last = some (ptr side p) := by rw [← h.last]; exact hl
  have hv : v.sel = some (ptr side p) := by rw [← h.sel, hsel]; exact hl
  have hit : ∃ it ∈ itemsAll (cOf s.view side) (env.root side), isSel v.last side it = true := by
    obtain ⟨a, ha, ha1, ha2⟩ := hline
    have hall := lined_all env s.view side
    have hm : ofLine side a ∈ (lines (layOf env s.view side) [] 2 (env.root side)).map (ofLine side) := List.mem_map_of_mem ha
    rw [← hall] at hm
    obtain ⟨b, hb, hb2⟩ := List.mem_map.mp hm
    obtain ⟨it, hit, hb⟩ := List.mem_flatMap.mp hb
    obtain ⟨pr, hpr, rfl⟩ := List.mem_map.mp hb
    simp only [asLine, ofLine, Prod.mk.injEq] at hb2
    refine ⟨it, hit, ?_⟩
    rcases prints_who hpr with ⟨h1, h2⟩ | ⟨q, h1, h2⟩
    · unfold isSel
      rw [hlast, ← h1, ← h2, hb2.1, hb2.2.1, ha1, ha2]
      simp
    · rw [hb2.1, ha1] at h1
      rw [hp q h1] at h2
      cases h2
  have hfound : w.found = true := by
    obtain ⟨it, hit, hs⟩ := hit
    obtain ⟨more, h1, _, h3⟩ := h.items
    rcases h3 rfl with hm | hm
    · rw [h1, hm, List.append_nil] at hit
      obtain ⟨e, he, rfl⟩ := List.mem_map.mp hit
      exact h.found.mpr ⟨e, he, hs⟩
    · exact hm
  obtain ⟨e, he, hs⟩ := h.found.mp hfound
  have hsc := h.seen e he hs
  obtain ⟨a, ha, hb⟩ := h.head e he hsc
  obtain ⟨h1, h2⟩ := prints_head ha
  unfold isSel at hs
  simp only [Bool.and_eq_true, Bool.not_eq_true', decide_eq_true_eq] at hs
  have hptr : a.who = ptr side p := by
    rw [h1]
    have := hs.2
    rw [hlast] at this
    injection this with this
    exact this.symm
  refine ⟨cellAt env s.view v.sel w.scroll e.it.col (a, e.y), ?_, hptr, ?_, ?_, ?_⟩
  · rw [h.screen, List.mem_flatMap]
    exact ⟨e, he, List.mem_map_of_mem (List.mem_of_mem_head? hb)⟩
  · show a.closing = false
    rw [h2, hs.1]
  · show selOf env v.sel a.who = true
    unfold selOf
    rw [hv, hptr]
    simp
  · show 1 ≤ e.y - w.scroll
    omega

end Verif.Lemmas.Split
