import Verif.Lemmas.Refused
/-!
# Lemmas: every refused text ends the reader
-/
namespace Verif.Lemmas
open Verif.Model Verif.Spec Verif.Spec.Accepted Verif.Spec.Refused

theorem why_mono {α : Type} {a b : Out α} {r : Reason} (h : Refines a b) (ha : why a = some r) : why b = some r := by
  rw [h (fun e => by rw [e] at ha; cases ha)]; exact ha

theorem not_93 {m : Mode} {f : Nat} {s : St} {v : Json} {s' : St} (h : item (envM m) f s = .ret v s') : ∀ s1, consumeToken (envM m) s ≠ .ret (.punct 93) s1 := by
  intro s1 e
  unfold item at h
  rw [e] at h
  simp [Out.bind, arrItem] at h

theorem badToken_ne {m : Mode} {r : Reason} : ¬ BadToken m [] r := by
  intro h
  have := bad_token h (LHist.init [] 0) []
  rw [tokenLoop] at this
  cases this

theorem at_bad {m : Mode} {s : St} (hs : Going s) {w x : Bytes} {r : Reason} (e : s.rest = w ++ x) (hw : Blank w) (hb : BadToken m x r) : why (consumeToken (envM m) s) = some r := by
  have hg : s.good = true := by
    rcases hs with hs | hs
    · exact hs
    · rw [hs] at e
      obtain ⟨-, rfl⟩ := List.append_eq_nil_iff.mp e.symm
      exact absurd hb badToken_ne
  unfold consumeToken
  rw [if_pos hg, e, skip_blank hw]
  exact bad_token hb _ _

theorem at_none {m : Mode} {s : St} (_ : Going s) (h : NoToken m s.rest) : ∃ s', consumeToken (envM m) s = .ret .nothing s' ∧ s'.good = false := by
  unfold consumeToken
  by_cases hg : s.good = true
  · rw [if_pos hg]
    obtain ⟨h', ws, e⟩ := no_token h s.hist s.warns
    exact ⟨_, e, rfl⟩
  · rw [if_neg hg]
    exact ⟨s, rfl, by simpa using hg⟩

theorem at_sign {m : Mode} {s : St} (hs : Going s) {w y : Bytes} {c : Byte} (e : s.rest = w ++ [c] ++ y) (hw : Blank w) (hc : c ∈ b!",:[]{}") :
    ∃ s', consumeToken (envM m) s = .ret (.punct c) s' ∧ s'.rest = y ∧ s'.good = true := by
  have hg : s.good = true := by
    rcases hs with hs | hs
    · exact hs
    · rw [hs] at e; simp at e
  unfold consumeToken
  rw [if_pos hg, e, List.append_assoc, skip_blank hw, List.singleton_append, punct_complete m hc]
  exact ⟨_, rfl, rfl, rfl⟩

theorem at_prim {m : Mode} {s : St} (hs : s.rest = [] → False) (hg : Going s) {w t rest : Bytes} {v : Json} {ws : List ExnKind} (e : s.rest = w ++ t ++ rest) (hw : Blank w)
    (hp : Prim m t rest v ws) : ∃ s', consumeToken (envM m) s = .ret (.val v) s' ∧ s'.rest = rest ∧ Going s' := by
  have hg : s.good = true := by
    rcases hg with h | h
    · exact h
    · exact (hs h).elim
  unfold consumeToken
  obtain ⟨g, h', es, k1, -, k3⟩ := prim_complete hp (w.foldl LHist.put s.hist) s.warns
  rw [if_pos hg, e, List.append_assoc, skip_blank hw, k3]
  exact ⟨_, rfl, rfl, k1⟩

theorem prim_ne {m : Mode} {rest : Bytes} {v : Json} {ws : List ExnKind} (hp : Prim m [] rest v ws) : False := by
  generalize he : ([] : Bytes) = u at hp
  cases hp with
  | str _ => simp at he
  | yes h _ => subst he; exact absurd (Name.small (by decide) h) (by decide)
  | no h _ => subst he; exact absurd (Name.small (by decide) h) (by decide)
  | null h => subst he; exact absurd (Name.small (by decide) h) (by decide)
  | int h _ _ =>
    have he := he.symm
    simp only [intText, List.append_eq_nil_iff] at he
    exact h.1 he.2
  | dbl _ _ _ _ => simp at he

theorem prim_rest {m : Mode} {x w t rest : Bytes} {v : Json} {ws : List ExnKind} (e : x = w ++ t ++ rest) (hp : Prim m t rest v ws) : x = [] → False := by
  rintro rfl
  have := e.symm
  simp only [List.append_eq_nil_iff] at this
  obtain ⟨⟨-, rfl⟩, -⟩ := this
  exact prim_ne hp

theorem at_plain {m : Mode} {s : St} (hg : Going s) (h : Plain m s.rest) : ∃ v s', consumeToken (envM m) s = .ret (.val v) s' := by
  obtain ⟨w, t, rest, v, ws, e, hw, hp⟩ := h
  obtain ⟨s', k, -⟩ := at_prim (prim_rest e hp) hg e hw hp
  exact ⟨v, s', k⟩

theorem at_noString {m : Mode} {s : St} (hg : Going s) (h : NoString m s.rest) : ∃ v s', consumeToken (envM m) s = .ret (.val v) s' ∧ ∀ x, v ≠ .str x := by
  obtain ⟨w, t, rest, v, ws, e, hw, hp, hv⟩ := h
  obtain ⟨s', k, -⟩ := at_prim (prim_rest e hp) hg e hw hp
  exact ⟨v, s', k, hv⟩

theorem at_key {m : Mode} {s : St} (hg : s.good = true) {t k x : Bytes} (h : Key m t k) (e : s.rest = t ++ x) :
    ∃ s' w2, consumeToken (envM m) s = .ret (.val (.str k)) s' ∧ s'.rest = w2 ++ x ∧ Blank w2 ∧ s'.good = true := by
  obtain ⟨w, key, wk, w2, rfl, hw, hk, hw2⟩ := h
  obtain ⟨h', es, -, k2⟩ := chars_complete hk (w2 ++ x) ((w.foldl LHist.put s.hist).put 34) s.warns []
  unfold consumeToken
  rw [if_pos hg, e, show w ++ [34] ++ key ++ [34] ++ w2 ++ x = w ++ (34 :: (key ++ 34 :: (w2 ++ x))) by simp, skip_blank hw]
  have tok1 : ∀ rest', tokenLoop (envM m) (34 :: rest') (w.foldl LHist.put s.hist) s.warns = stringLoop (envM m) rest' ((w.foldl LHist.put s.hist).put 34) s.warns [] := by
    intro rest'; simp only [tokenLoop, if_true]; rfl
  rw [tok1, k2]
  exact ⟨_, w2, rfl, rfl, hw2, rfl⟩

theorem at_value {m : Mode} {s : St} (hg : s.good = true) {t x : Bytes} (h : Padded m t x) (e : s.rest = t ++ x) : ∃ f v s', item (envM m) f s = .ret v s' ∧ s'.rest = x ∧ Going s' := by
  obtain ⟨w, u, v, ws, rfl, hw, hv⟩ := h
  obtain ⟨f, g, h', es, hg', -, k⟩ := gets m hv w s.hist s.warns hw
  have : s = ⟨w ++ u ++ x, true, s.hist, s.warns⟩ := by cases s; simp_all
  rw [← this] at k
  exact ⟨f, v, _, k, rfl, hg'⟩

/-- The items of an array from a state on. -/
def itemsFrom (m : Mode) (f : Nat) (acc : List Json) (s : St) : Out Json := (consumeToken (envM m) s).bind fun tok s => arrayLoop (envM m) f acc tok s

theorem itemsFrom_eq (m : Mode) (f : Nat) (acc : List Json) (s : St) :
    itemsFrom m (f + 1) acc s = (item (envM m) f s).bind (fun child s => (consumeToken (envM m) s).bind (arrSep (envM m) f (acc ++ [child]))) := by
  unfold itemsFrom item
  rw [bind_assoc]
  congr 1

theorem itemsFrom_mono (m : Mode) {f f' : Nat} (h : f ≤ f') (acc : List Json) (s : St) : Refines (itemsFrom m f acc s) (itemsFrom m f' acc s) :=
  Refines.bind .rfl (fun t s => (reader_mono (envM m) f f' h).2.2.2 acc t s)

/-- What is proved of a value. -/
def StopV (m : Mode) (text : Bytes) (r : Reason) : Prop :=
  ∀ s, s.good = true → s.rest = text → (∃ f, why (item (envM m) f s) = some r ∧ why (readNext (envM m) (f + 1) s) = some r) ∧ ∀ s', consumeToken (envM m) s ≠ .ret (.punct 93) s'

/-- What is proved of items. -/
def StopI (m : Mode) (first : Bool) (text : Bytes) (r : Reason) : Prop :=
  ∀ acc s, s.good = true → s.rest = text → (∃ f, why (itemsFrom m f acc s) = some r) ∧ (first = true → ∀ s', consumeToken (envM m) s ≠ .ret (.punct 93) s')

/-- What is proved of members. -/
def StopM (m : Mode) (first : Bool) (seen : List Bytes) (text : Bytes) (r : Reason) : Prop :=
  ∀ (r0 : Option Entries) s, r0.isNone = first → s.good = true → s.rest = text → (keys (r0.getD [])).Nodup → (∀ x, x ∈ seen ↔ x ∈ keys (r0.getD [])) →
    ∃ f, why (objectLoop (envM m) f r0 s) = some r

theorem item_throws {m : Mode} {s : St} (hs : Going s) (h : NoToken m s.rest ∨ Sign b!",:]}" s.rest) (f : Nat) : why (item (envM m) f s) = some (.error .notJson) := by
  unfold item
  rcases h with h | ⟨w, c, y, e, hw, hc⟩
  · obtain ⟨s', k, -⟩ := at_none hs h
    rw [k]; rfl
  · obtain ⟨s', k, -⟩ := at_sign (m := m) hs e hw (by simp at hc ⊢; omega)
    rw [k]
    simp at hc
    simp only [Out.bind, arrItem]
    rw [if_neg (by omega), if_neg (by omega)]
    rfl

theorem next_nothing {m : Mode} {s : St} (hs : Going s) (h : Nothing m s.rest) (f : Nat) : ∃ s', readNext (envM m) (f + 1) s = .ret none s' := by
  rw [readNext_succ]
  rcases h with h | ⟨w, c, y, e, hw, hc⟩
  · obtain ⟨s', k, -⟩ := at_none hs h
    rw [k]; exact ⟨_, rfl⟩
  · obtain ⟨s', k, -⟩ := at_sign (m := m) hs e hw (by simp at hc ⊢; omega)
    rw [k]
    simp at hc
    simp only [Out.bind]
    rw [if_neg (by omega), if_neg (by omega)]
    exact ⟨_, rfl⟩

theorem arr_eq {m : Mode} {f : Nat} {s : St} (h : ∀ s', consumeToken (envM m) s ≠ .ret (.punct 93) s') : readArray (envM m) (f + 1) s = itemsFrom m f [] s := by
  rw [readArray_succ]
  unfold itemsFrom
  cases ht : consumeToken (envM m) s with
  | ret tk s1 =>
    cases tk with
    | punct c =>
      simp only [Out.bind]
      rw [if_neg (fun hc => h s1 (by rw [ht, hc]))]
    | _ => rfl
  | _ => rfl

/-- Up to the colon of a member. -/
theorem obj_key {m : Mode} {r0 : Option Entries} {s : St} (hg : s.good = true) {t k x : Bytes} (hk : Key m t k) (e : s.rest = t ++ x) (f : Nat) :
    ∃ s1 w2, s1.rest = w2 ++ x ∧ Blank w2 ∧ s1.good = true ∧ objectLoop (envM m) (f + 1) r0 s = (consumeToken (envM m) s1).bind (objColon (envM m) f (r0.getD []) k) := by
  obtain ⟨s1, w2, h1, h2, h3, h4⟩ := at_key hg hk e
  refine ⟨s1, w2, h2, h3, h4, ?_⟩
  rw [objectLoop_succ, h1]
  rfl

/-- Up to the value of a member. -/
theorem obj_colon {m : Mode} {r0 : Option Entries} {s : St} (hg : s.good = true) {t k x : Bytes} {seen : List Bytes} (hk : Key m t k) (hstrict : m.strict = true → k ∉ seen)
    (hseen : ∀ x, x ∈ seen ↔ x ∈ keys (r0.getD [])) (e : s.rest = t ++ b!":" ++ x) :
    ∃ s2, s2.rest = x ∧ s2.good = true ∧ ∀ f, objectLoop (envM m) (f + 1) r0 s = (readNext (envM m) f s2).bind (objChild (envM m) f (dropKey (r0.getD []) k) k) := by
  obtain ⟨s1, w2, h1, h2, h3, h4⟩ := at_key hg hk (by rw [e, List.append_assoc])
  obtain ⟨s2, k1, k2, k3⟩ := at_sign (m := m) (Or.inl h4) (by rw [h2, List.append_assoc]) h3 (c := 58) (by simp)
  have hmem : Json.contains (r0.getD []) k = true ↔ k ∈ seen := by rw [hseen, contains_iff]
  refine ⟨if Json.contains (r0.getD []) k then warnDup s2 k else s2, ?_, ?_, fun f => ?_⟩
  · split
    · exact k2
    · exact k2
  · split
    · exact k3
    · exact k3
  · rw [objectLoop_succ, h1]
    simp only [Out.bind, objKey]
    rw [k1]
    simp only [Out.bind, objColon]
    rw [if_neg (by simp), if_neg (by
      intro h
      rw [Bool.and_eq_true, hmem] at h
      exact hstrict h.2 h.1)]

/-- Up to the separator of a member. -/
theorem obj_child {m : Mode} {r0 : Option Entries} {s : St} (hg : s.good = true) {t k u x : Bytes} {seen : List Bytes} (hk : Key m t k) (hstrict : m.strict = true → k ∉ seen)
    (hseen : ∀ x, x ∈ seen ↔ x ∈ keys (r0.getD [])) (hv : Padded m u x) (e : s.rest = t ++ b!":" ++ u ++ x) :
    ∃ f v s3, s3.rest = x ∧ Going s3 ∧ ∀ f', f ≤ f' →
      objectLoop (envM m) (f' + 1) r0 s = (consumeToken (envM m) s3).bind (objSep (envM m) f' (addEntry (envM m) (dropKey (r0.getD []) k) k v)) := by
  obtain ⟨s2, h1, h2, h3⟩ := obj_colon hg hk hstrict hseen (x := u ++ x) (by rw [e, List.append_assoc])
  obtain ⟨f, v, s3, k1, k2, k3⟩ := at_value h2 hv h1
  refine ⟨f + 1, v, s3, k2, k3, fun f' hf' => ?_⟩
  rw [h3, readNext_of_item (envM m) k1 f' hf']
  rfl

theorem stops (m : Mode) {text : Bytes} {r : Reason} (h : StopsValue m text r) : StopV m text r := by
  refine StopsValue.rec (m := m) (motive_1 := fun text r _ => StopV m text r) (motive_2 := fun first text r _ => StopI m first text r)
    (motive_3 := fun first seen text r _ => StopM m first seen text r) ?_ ?_ ?_ ?_ ?_ ?_ ?_ ?_ ?_ ?_ ?_ ?_ ?_ ?_ ?_ ?_ ?_ ?_ h
  · intro w x r hw hb s hg e
    have hc := at_bad (Or.inl hg) e hw hb
    refine ⟨⟨0, bind_why _ hc, ?_⟩, fun s' h => by rw [h] at hc; cases hc⟩
    rw [readNext_succ]
    exact bind_why _ hc
  · intro w y r hw _ ih s hg e
    obtain ⟨s1, k1, k2, k3⟩ := at_sign (m := m) (Or.inl hg) e hw (by simp)
    obtain ⟨⟨f, hf⟩, hn⟩ := ih [] s1 k3 k2
    have ha : why (readArray (envM m) (f + 1) s1) = some r := by rw [arr_eq (hn rfl)]; exact hf
    refine ⟨⟨f + 1, ?_, ?_⟩, fun s' h => by rw [k1] at h; cases h⟩
    · unfold item
      rw [k1]
      simp only [Out.bind, arrItem, if_true]
      exact ha
    · rw [readNext_succ, k1]
      simp only [Out.bind]
      rw [if_neg (by decide), if_pos True.intro]
      exact bind_why _ ha
  · intro w y r hw _ ih s hg e
    obtain ⟨s1, k1, k2, k3⟩ := at_sign (m := m) (Or.inl hg) e hw (by simp)
    obtain ⟨f, hf⟩ := ih none s1 rfl k3 k2 List.nodup_nil (fun x => Iff.rfl)
    refine ⟨⟨f, ?_, ?_⟩, fun s' h => by rw [k1] at h; cases h⟩
    · unfold item
      rw [k1]
      simp only [Out.bind, arrItem]
      rw [if_neg (by decide), if_pos True.intro]
      exact hf
    · rw [readNext_succ, k1]
      simp only [Out.bind, if_true]
      exact bind_why _ hf
  · intro first x r _ ih acc s hg e
    obtain ⟨⟨f, hf, -⟩, hn⟩ := ih s hg e
    exact ⟨⟨f + 1, by rw [itemsFrom_eq]; exact bind_why _ hf⟩, fun _ => hn⟩
  · intro first x hx acc s hg e
    subst e
    refine ⟨⟨1, ?_⟩, ?_⟩
    · rw [itemsFrom_eq]
      refine bind_why _ (item_throws (Or.inl hg) (hx.imp_right ?_) 0)
      rintro ⟨w, c, y, e, hw, hc⟩
      exact ⟨w, c, y, e, hw, by cases first <;> simp at hc ⊢ <;> omega⟩
    · rintro rfl s' h
      rcases hx with hx | ⟨w, c, y, e, hw, hc⟩
      · obtain ⟨s1, k, -⟩ := at_none (m := m) (Or.inl hg) hx
        rw [k] at h; cases h
      · obtain ⟨s1, k, -⟩ := at_sign (m := m) (Or.inl hg) e hw (by simp at hc ⊢; omega)
        rw [k] at h
        cases h
        simp at hc
  · intro first t w x r hp hw hb acc s hg e
    obtain ⟨f, v, s1, k1, k2, k3⟩ := at_value hg hp (by rw [e, List.append_assoc])
    refine ⟨⟨f + 1, ?_⟩, fun _ => not_93 k1⟩
    rw [itemsFrom_eq, k1]
    show why ((consumeToken (envM m) s1).bind _) = _
    exact bind_why _ (at_bad k3 k2 hw hb)
  · intro first t x hp hx acc s hg e
    obtain ⟨f, v, s1, k1, k2, k3⟩ := at_value hg hp e
    refine ⟨⟨f + 1, ?_⟩, fun _ => not_93 k1⟩
    rw [itemsFrom_eq, k1]
    subst k2
    simp only [Out.bind]
    rcases hx with hx | ⟨w, c, y, e, hw, hc⟩ | hx
    · obtain ⟨s2, k, -⟩ := at_none k3 hx
      rw [k]; rfl
    · obtain ⟨s2, k, -⟩ := at_sign (m := m) k3 e hw (by simp at hc ⊢; omega)
      rw [k]
      simp at hc
      simp only [arrSep]
      rw [if_neg (by omega), if_neg (by omega)]
      rfl
    · obtain ⟨v2, s2, k⟩ := at_plain k3 hx
      rw [k]; rfl
  · intro first t w x r hp hw _ ih acc s hg e
    obtain ⟨f, v, s1, k1, k2, k3⟩ := at_value hg hp (by rw [e]; simp)
    obtain ⟨s2, l1, l2, l3⟩ := at_sign (m := m) k3 k2 hw (by simp)
    obtain ⟨⟨f2, hf2⟩, -⟩ := ih (acc ++ [v]) s2 l3 l2
    refine ⟨⟨max f f2 + 1, ?_⟩, fun _ => not_93 k1⟩
    rw [itemsFrom_eq, (item_mono (envM m) (Nat.le_max_left f f2) s (by rw [k1]; simp)).trans k1]
    simp only [Out.bind]
    rw [l1]
    simp only [arrSep]
    rw [if_neg (by decide), if_pos True.intro]
    exact why_mono (itemsFrom_mono m (Nat.le_max_right f f2) _ _) hf2
  · intro first seen w x r hw hb r0 s _ hg e _ _
    exact ⟨1, by rw [objectLoop_succ]; exact bind_why _ (at_bad (Or.inl hg) e hw hb)⟩
  · intro first seen x hx r0 s hr hg e _ _
    subst e
    refine ⟨1, ?_⟩
    rw [objectLoop_succ]
    rcases hx with hx | ⟨w, c, y, e, hw, hc⟩ | hx
    · obtain ⟨s2, k, -⟩ := at_none (Or.inl hg) hx
      rw [k]; rfl
    · obtain ⟨s2, k, -⟩ := at_sign (m := m) (Or.inl hg) e hw (by cases first <;> simp at hc ⊢ <;> omega)
      rw [k]
      simp only [Out.bind, objKey]
      rw [if_neg (by rw [hr]; cases first <;> simp at hc ⊢; omega)]
      rfl
    · obtain ⟨v2, s2, k, hv⟩ := at_noString (Or.inl hg) hx
      rw [k]
      cases v2 with
      | str x => exact absurd rfl (hv x)
      | _ => rfl
  · intro first seen t k x r hk hb r0 s _ hg e _ _
    obtain ⟨s1, w2, h1, h2, h3, h4⟩ := obj_key (r0 := r0) hg hk e 0
    exact ⟨1, by rw [h4]; exact bind_why _ (at_bad (Or.inl h3) h1 h2 hb)⟩
  · intro first seen t k x hk hx r0 s _ hg e _ _
    obtain ⟨s1, w2, h1, h2, h3, h4⟩ := obj_key (r0 := r0) hg hk e 0
    refine ⟨1, ?_⟩
    rw [h4]
    have pre : ∀ w : Bytes, Blank w → Blank (w2 ++ w) := by
      intro w hw y hy
      rcases List.mem_append.mp hy with hy | hy
      · exact h2 y hy
      · exact hw y hy
    rcases hx with hx | ⟨w, c, y, e, hw, hc⟩ | ⟨w, t', rest, v, ws, e, hw, hp⟩
    · have hx : NoToken m s1.rest := by
        rw [h1]
        cases hx with
        | blank hw => exact .blank (pre _ hw)
        | @str w t v ws y hw k1 k2 => have := NoToken.str (m := m) (pre _ hw) k1 k2; simpa using this
        | @null w c z hw k1 k2 k3 => have := NoToken.null (m := m) (pre _ hw) k1 k2 k3; simpa using this
      obtain ⟨s2, k, -⟩ := at_none (Or.inl h3) hx
      rw [k]; rfl
    · obtain ⟨s2, k, -⟩ := at_sign (m := m) (Or.inl h3) (w := w2 ++ w) (y := y) (c := c) (by rw [h1, e]; simp) (pre _ hw) (by simp at hc ⊢; omega)
      rw [k]
      simp at hc
      simp only [Out.bind, objColon]
      rw [if_pos (by omega)]
      rfl
    · have e' : s1.rest = (w2 ++ w) ++ t' ++ rest := by rw [h1, e]; simp
      obtain ⟨s2, k, -⟩ := at_prim (prim_rest e' hp) (Or.inl h3) e' (pre _ hw) hp
      rw [k]; rfl
  · intro first seen t k x hk hs hm r0 s _ hg e _ hseen
    obtain ⟨s1, w2, h1, h2, h3, h4⟩ := obj_key (r0 := r0) hg hk (by rw [e, List.append_assoc]) 0
    obtain ⟨s2, k1, k2, k3⟩ := at_sign (m := m) (Or.inl h3) (by rw [h1, List.append_assoc]) h2 (c := 58) (by simp)
    refine ⟨1, ?_⟩
    rw [h4, k1]
    simp only [Out.bind, objColon]
    rw [if_neg (by simp), if_pos (by rw [Bool.and_eq_true, contains_iff, ← hseen]; exact ⟨hm, hs⟩)]
    rfl
  · intro first seen t k x r hk hs _ ih r0 s _ hg e _ hseen
    obtain ⟨s2, h1, h2, h3⟩ := obj_colon hg hk hs hseen e
    obtain ⟨⟨f, -, hf⟩, -⟩ := ih s2 h2 h1
    exact ⟨f + 2, by rw [h3]; exact bind_why _ hf⟩
  · intro first seen t k x hk hs hx r0 s _ hg e _ hseen
    obtain ⟨s2, h1, h2, h3⟩ := obj_colon hg hk hs hseen e
    subst h1
    obtain ⟨s3, h4⟩ := next_nothing (Or.inl h2) hx 0
    exact ⟨2, by rw [h3, h4]; rfl⟩
  · intro first seen t k u w x r hk hs hv hw hb r0 s _ hg e _ hseen
    obtain ⟨f, v, s3, h1, h2, h3⟩ := obj_child hg hk hs hseen hv (by rw [e]; simp)
    exact ⟨f + 1, by rw [h3 f (Nat.le_refl _)]; exact bind_why _ (at_bad h2 h1 hw hb)⟩
  · intro first seen t k u x hk hs hv hx r0 s _ hg e _ hseen
    obtain ⟨f, v, s3, h1, h2, h3⟩ := obj_child hg hk hs hseen hv e
    subst h1
    obtain ⟨s4, h4, h5⟩ := at_none h2 hx
    refine ⟨f + 2, ?_⟩
    rw [h3 (f + 1) (by omega), h4]
    simp only [Out.bind, objSep]
    rw [objectLoop_succ]
    unfold consumeToken
    rw [if_neg (by simp [h5])]
    rfl
  · intro first seen t k u w c x r hk hs hv hw hc _ ih r0 s _ hg e hn hseen
    obtain ⟨f, v, s3, h1, h2, h3⟩ := obj_child hg hk hs hseen hv (by rw [e]; simp)
    obtain ⟨s4, k1, k2, k3⟩ := at_sign (m := m) h2 h1 hw (by simp at hc ⊢; omega)
    have hadd := addOne_nodup (envM m) (r0.getD []) k v hn
    obtain ⟨f2, hf2⟩ := ih (some (addEntry (envM m) (dropKey (r0.getD []) k) k v)) s4 rfl k3 k2 hadd.1 (by
      intro z
      rw [Option.getD_some, hadd.2 z, List.mem_cons, List.mem_cons, hseen])
    refine ⟨max f f2 + 1, ?_⟩
    rw [h3 _ (Nat.le_max_left f f2), k1]
    simp only [Out.bind, objSep]
    rw [if_neg (by simp at hc; omega)]
    exact why_mono ((reader_mono (envM m) f2 (max f f2) (Nat.le_max_right f f2)).2.1 _ _) hf2

/-- Which texts end the reader, and how. -/
theorem refused_iff (m : Mode) (junk : List Byte) (n : Nat) (input : Bytes) (r : Reason) :
    why (Model.read (envM m) (St.init junk n input)) = some r ↔ StopsValue m input r := by
  constructor
  · intro h
    exact (ends_all m _).next _ _ rfl h
  · intro h
    obtain ⟨⟨f, -, hf⟩, -⟩ := stops m h (St.init junk n input) rfl rfl
    rw [read_eq (envM m) _ (init_exhausted junk n _) (f + 1) (fun e => by rw [e] at hf; cases hf)]
    exact hf

/-- Which texts are taken for nothing. -/
theorem nothing_iff (m : Mode) (junk : List Byte) (n : Nat) (input : Bytes) :
    (∃ s, Model.read (envM m) (St.init junk n input) = .ret none s) ↔ Nothing m input := by
  constructor
  · rintro ⟨s, h⟩
    exact next_none (s := St.init junk n input) rfl h
  · intro h
    exact next_nothing (s := St.init junk n input) (Or.inl rfl) h _

end Verif.Lemmas
