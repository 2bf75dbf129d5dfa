import Verif.Lemmas.Accepted
/-!
# Lemmas: every accepted text is read
-/
namespace Verif.Lemmas
open Verif.Model Verif.Spec Verif.Spec.Accepted

/-- What is proved of a value. -/
def GetsV (m : Mode) (t rest : Bytes) (v : Json) (ws : List ExnKind) : Prop :=
  ∀ w hist warns, Blank w → ∃ f g h es, (g = true ∨ rest = []) ∧ List.map Exn.kind es = ws ∧
    item (envM m) f ⟨w ++ t ++ rest, true, hist, warns⟩ = .ret v ⟨rest, g, h, warns ++ es⟩

/-- What is proved of the items of an array. -/
def GetsI (m : Mode) (t rest : Bytes) (vs : List Json) (ws : List ExnKind) : Prop :=
  ∀ acc hist warns, ∃ f h es, List.map Exn.kind es = ws ∧
    (tokenLoop (envM m) (t ++ rest) hist warns).bind (fun tok s => arrayLoop (envM m) f acc tok s) = .ret (.arr (acc ++ vs)) ⟨rest, true, h, warns ++ es⟩

/-- What is proved of the members of an object. -/
def GetsM (m : Mode) (seen : List Bytes) (t rest : Bytes) (ents : List (Bytes × Json)) (ws : List ExnKind) : Prop :=
  ∀ (r : Option Entries) hist warns, (keys (r.getD [])).Nodup → (∀ x, x ∈ seen ↔ x ∈ keys (r.getD [])) → ∃ f g h es, (g = true ∨ rest = []) ∧ List.map Exn.kind es = ws ∧
    objectLoop (envM m) f r ⟨t ++ rest, true, hist, warns⟩ = .ret (.obj (addAll (envM m) (r.getD []) ents)) ⟨rest, g, h, warns ++ es⟩

theorem gets_item {m : Mode} {t rest : Bytes} {v : Json} {ws : List ExnKind} (hv : GetsV m t rest v ws) {w : Bytes} (hw : Blank w) (hr : rest ≠ []) (hist : LHist) (warns : List Exn)
    (acc : List Json) :
    ∃ f h es, List.map Exn.kind es = ws ∧ ∀ f', f ≤ f' →
      (tokenLoop (envM m) (w ++ t ++ rest) hist warns).bind (fun tok s => arrayLoop (envM m) (f' + 1) acc tok s) =
        (tokenLoop (envM m) rest h (warns ++ es)).bind (arrSep (envM m) f' (acc ++ [v])) := by
  obtain ⟨f, g, h, es, hg, hws, e⟩ := hv w hist warns hw
  have hg : g = true := by rcases hg with hg | hg; exact hg; exact absurd hg hr
  subst hg
  refine ⟨f, h, es, hws, fun f' hf' => ?_⟩
  have e' : item (envM m) f' ⟨w ++ t ++ rest, true, hist, warns⟩ = _ := (item_mono (envM m) hf' _ (by rw [e]; simp)).trans e
  have : ∀ o : Out Tok, o.bind (fun t s => arrayLoop (envM m) (f' + 1) acc t s) =
      (o.bind (arrItem (envM m) f')).bind (fun child s => (consumeToken (envM m) s).bind (arrSep (envM m) f' (acc ++ [child]))) := by
    intro o; rw [bind_assoc]; congr 1
  rw [this]
  unfold item at e'
  rw [consumeToken_good] at e'
  rw [e']
  simp only [Out.bind]
  rw [consumeToken_good]

theorem gets_member {m : Mode} {seen : List Bytes} {w1 key k w2 w3 t rest : Bytes} {wk ws : List ExnKind} {v : Json} (h1 : Blank w1) (hk : Chars m key k wk) (h2 : Blank w2)
    (hs : m.strict = true → k ∉ seen) (h3 : Blank w3) (hv : GetsV m t rest v ws) (hr : rest ≠ []) (r : Option Entries) (hist : LHist) (warns : List Exn)
    (hseen : ∀ x, x ∈ seen ↔ x ∈ keys (r.getD [])) :
    ∃ f h es, List.map Exn.kind es = wk ++ again seen k ++ ws ∧ ∀ f', f ≤ f' →
      objectLoop (envM m) (f' + 1) r ⟨w1 ++ (34 :: (key ++ 34 :: (w2 ++ (58 :: (w3 ++ t ++ rest))))), true, hist, warns⟩ =
        (tokenLoop (envM m) rest h (warns ++ es)).bind (objSep (envM m) f' (addEntry (envM m) (dropKey (r.getD []) k) k v)) := by
  obtain ⟨ha, es1, e1, e2⟩ := chars_complete hk (w2 ++ (58 :: (w3 ++ t ++ rest))) ((w1.foldl LHist.put hist).put 34) warns []
  have hmem : Json.contains (r.getD []) k = true ↔ k ∈ seen := by rw [hseen, contains_iff]
  have hstr : ¬ (Json.contains (r.getD []) k && (envM m).strictOr) = true := by
    intro h
    rw [Bool.and_eq_true, hmem] at h
    exact hs h.2 h.1
  obtain ⟨es3, e3, hs3⟩ : ∃ es3 : List Exn, es3.map Exn.kind = again seen k ∧
      (if Json.contains (r.getD []) k then warnDup ⟨w3 ++ t ++ rest, true, (w2.foldl LHist.put ha).put 58, warns ++ es1⟩ k else ⟨w3 ++ t ++ rest, true, (w2.foldl LHist.put ha).put 58, warns ++ es1⟩) =
        ⟨w3 ++ t ++ rest, true, (w2.foldl LHist.put ha).put 58, warns ++ es1 ++ es3⟩ := by
    by_cases hk : k ∈ seen
    · exact ⟨[⟨.doubleKey k, (w2.foldl LHist.put ha).put 58⟩], by simp [again, hk], by rw [if_pos (hmem.mpr hk)]; rfl⟩
    · exact ⟨[], by simp [again, hk], by rw [if_neg (fun h => hk (hmem.mp h))]; simp⟩
  obtain ⟨f, g, h, es, hg, hws, e⟩ := hv w3 ((w2.foldl LHist.put ha).put 58) (warns ++ es1 ++ es3) h3
  have hg : g = true := by rcases hg with hg | hg; exact hg; exact absurd hg hr
  subst hg
  refine ⟨f + 1, h, es1 ++ es3 ++ es, by simp [e1, e3, hws], fun f' hf' => ?_⟩
  have tok1 : ∀ rest', tokenLoop (envM m) (34 :: rest') (w1.foldl LHist.put hist) warns = stringLoop (envM m) rest' ((w1.foldl LHist.put hist).put 34) warns [] := by
    intro rest'; simp only [tokenLoop, if_true]; rfl
  rw [objectLoop_succ, consumeToken_good, skip_blank h1, tok1, e2]
  simp only [Out.bind, objKey, List.nil_append]
  rw [consumeToken_good, skip_blank h2, punct_tok (by decide)]
  simp only [Out.bind, objColon]
  rw [if_neg (by simp), if_neg hstr, hs3, readNext_of_item (envM m) e f' hf']
  simp only [Out.bind, objChild]
  rw [consumeToken_good]
  simp

theorem gets (m : Mode) {t rest : Bytes} {v : Json} {ws : List ExnKind} (h : Value m t rest v ws) : GetsV m t rest v ws := by
  refine Value.rec (m := m) (motive_1 := fun t rest v ws _ => GetsV m t rest v ws) (motive_2 := fun t rest vs ws _ => GetsI m t rest vs ws)
    (motive_3 := fun seen t rest ents ws _ => GetsM m seen t rest ents ws) ?_ ?_ ?_ ?_ ?_ ?_ ?_ ?_ ?_ ?_ h
  · intro t rest v ws hp w hist warns hw
    obtain ⟨g, h', es, k1, k2, k3⟩ := prim_complete hp (w.foldl LHist.put hist) warns
    refine ⟨0, g, h', es, k1, k2, ?_⟩
    unfold item
    rw [consumeToken_good, List.append_assoc, skip_blank hw, k3]
    rfl
  · intro w' rest hwf w hist warns hw
    refine ⟨1, true, (w'.foldl LHist.put ((w.foldl LHist.put hist).put 91)).put 93, [], Or.inl rfl, rfl, ?_⟩
    unfold item
    rw [show w ++ (b!"[" ++ w' ++ b!"]") ++ rest = w ++ (91 :: (w' ++ (93 :: rest))) by simp, consumeToken_good, skip_blank hw, punct_tok (by decide)]
    simp only [Out.bind, arrItem, if_true]
    rw [readArray_succ, consumeToken_good, skip_blank hwf, punct_tok (by decide)]
    simp [Out.bind]
  · intro t rest vs ws _ ih w hist warns hw
    obtain ⟨f, h, es, hws, e1⟩ := ih [] ((w.foldl LHist.put hist).put 91) warns
    refine ⟨f + 1, true, h, es, Or.inl rfl, hws, ?_⟩
    unfold item
    rw [show w ++ (b!"[" ++ t) ++ rest = w ++ (91 :: (t ++ rest)) by simp, consumeToken_good, skip_blank hw, punct_tok (by decide)]
    simp only [Out.bind, arrItem, if_true]
    rw [readArray_succ, consumeToken_good]
    simp only [List.nil_append] at e1
    rw [← e1]
    cases ht : tokenLoop (envM m) (t ++ rest) ((w.foldl LHist.put hist).put 91) warns with
    | ret tk s1 =>
      cases tk with
      | punct c =>
        simp only [Out.bind]
        by_cases hc : c = 93
        · exfalso
          subst hc
          rw [ht] at e1
          simp only [Out.bind] at e1
          cases f with
          | zero => simp [arrayLoop] at e1
          | succ f => rw [arrayLoop_succ] at e1; simp [arrItem, Out.bind] at e1
        · rw [if_neg hc]
      | _ => rfl
    | _ => rfl
  · intro w' rest hwf w hist warns hw
    refine ⟨1, true, (w'.foldl LHist.put ((w.foldl LHist.put hist).put 123)).put 125, [], Or.inl rfl, rfl, ?_⟩
    unfold item
    rw [show w ++ (b!"{" ++ w' ++ b!"}") ++ rest = w ++ (123 :: (w' ++ (125 :: rest))) by simp, consumeToken_good, skip_blank hw, punct_tok (by decide)]
    simp only [Out.bind, arrItem]
    rw [if_neg (by decide), if_pos True.intro, objectLoop_succ, consumeToken_good, skip_blank hwf, punct_tok (by decide)]
    simp [Out.bind, objKey]
  · intro t rest ents ws _ ih w hist warns hw
    obtain ⟨f, g, h, es, hg, hws, e1⟩ := ih none ((w.foldl LHist.put hist).put 123) warns List.nodup_nil (fun x => Iff.rfl)
    refine ⟨f, g, h, es, hg, hws, ?_⟩
    unfold item
    rw [show w ++ (b!"{" ++ t) ++ rest = w ++ (123 :: (t ++ rest)) by simp, consumeToken_good, skip_blank hw, punct_tok (by decide)]
    simp only [Out.bind, arrItem]
    rw [if_neg (by decide), if_pos True.intro, e1, Option.getD_none, addAll_nil]
    rfl
  · intro w1 t w2 rest v ws h1 _ h2 ih acc hist warns
    obtain ⟨f, h, es, hws, e⟩ := gets_item ih h1 (by simp) hist warns acc
    refine ⟨f + 1, (w2.foldl LHist.put h).put 93, es, hws, ?_⟩
    rw [show w1 ++ t ++ w2 ++ b!"]" ++ rest = w1 ++ t ++ (w2 ++ b!"]" ++ rest) by simp, e f (Nat.le_refl _), List.append_assoc, skip_blank h2, List.singleton_append, punct_tok (by decide)]
    simp [Out.bind, arrSep]
  · intro w1 t w2 u rest v ws vs ws' h1 _ h2 _ ih ih2 acc hist warns
    obtain ⟨f, h, es, hws, e⟩ := gets_item ih h1 (by simp) hist warns acc
    obtain ⟨f2, h', es', hws', e'⟩ := ih2 (acc ++ [v]) ((w2.foldl LHist.put h).put 44) (warns ++ es)
    refine ⟨max f f2 + 1, h', es ++ es', by simp [hws, hws'], ?_⟩
    rw [show w1 ++ t ++ w2 ++ b!"," ++ u ++ rest = w1 ++ t ++ (w2 ++ b!"," ++ u ++ rest) by simp, e (max f f2) (by omega),
      show w2 ++ b!"," ++ u ++ rest = w2 ++ (44 :: (u ++ rest)) by simp, skip_blank h2, punct_tok (by decide)]
    simp only [Out.bind, arrSep]
    rw [if_neg (by decide), if_pos True.intro, consumeToken_good]
    refine ((Refines.bind .rfl (fun t s => (reader_mono (envM m) f2 (max f f2) (by omega)).2.2.2 _ t s)) (by rw [e']; simp)).trans ?_
    rw [e']
    simp [List.append_assoc]
  · intro seen w1 key k wk w2 w3 t w4 rest v ws h1 hk h2 hs h3 _ h4 ih r hist warns hn hseen
    obtain ⟨f, h, es, hws, e⟩ := gets_member h1 hk h2 hs h3 ih (by simp) r hist warns hseen
    refine ⟨f + 1, true, (w4.foldl LHist.put h).put 125, es, Or.inl rfl, hws, ?_⟩
    rw [show w1 ++ [34] ++ key ++ [34] ++ w2 ++ b!":" ++ w3 ++ t ++ w4 ++ b!"}" ++ rest = w1 ++ (34 :: (key ++ 34 :: (w2 ++ (58 :: (w3 ++ t ++ (w4 ++ b!"}" ++ rest)))))) by simp,
      e f (Nat.le_refl _), List.append_assoc, skip_blank h4, List.singleton_append, punct_tok (by decide)]
    simp [Out.bind, objSep, addAll]
  · intro seen w1 key k wk w2 w3 t w4 e0 rest v ws v' we h1 hk h2 hs h3 _ h4 hp ih r hist warns hn hseen
    have hne : e0 ≠ [] := by
      intro he
      generalize e0 = u at hp he
      cases hp with
      | str _ => simp at he
      | yes h _ => rw [he] at h; exact absurd (Name.small (by decide) h) (by decide)
      | no h _ => rw [he] at h; exact absurd (Name.small (by decide) h) (by decide)
      | null h => rw [he] at h; exact absurd (Name.small (by decide) h) (by decide)
      | int h _ _ =>
        simp only [intText, List.append_eq_nil_iff] at he
        exact h.1 he.2
      | dbl _ _ _ _ => simp at he
    obtain ⟨f, h, es, hws, e⟩ := gets_member h1 hk h2 hs h3 ih (by simp [hne]) r hist warns hseen
    obtain ⟨g, h', es', k1, k2, k3⟩ := prim_complete hp (w4.foldl LHist.put h) (warns ++ es)
    refine ⟨f + 1, g, h', es ++ es', k1, by simp [hws, k2], ?_⟩
    rw [show w1 ++ [34] ++ key ++ [34] ++ w2 ++ b!":" ++ w3 ++ t ++ w4 ++ e0 ++ rest = w1 ++ (34 :: (key ++ 34 :: (w2 ++ (58 :: (w3 ++ t ++ (w4 ++ e0 ++ rest)))))) by simp,
      e f (Nat.le_refl _), List.append_assoc, skip_blank h4, k3]
    simp [Out.bind, objSep, addAll]
  · intro seen w1 key k wk w2 w3 t w4 c u rest v ws ents ws' h1 hk h2 hs h3 _ h4 hc _ ih ih2 r hist warns hn hseen
    obtain ⟨f, h, es, hws, e⟩ := gets_member h1 hk h2 hs h3 ih (by simp) r hist warns hseen
    have hadd := addOne_nodup (envM m) (r.getD []) k v hn
    obtain ⟨f2, g, h', es', hg, hws', e'⟩ := ih2 (some (addEntry (envM m) (dropKey (r.getD []) k) k v)) ((w4.foldl LHist.put h).put c) (warns ++ es) hadd.1 (by
      intro z
      rw [Option.getD_some, hadd.2 z, List.mem_cons, List.mem_cons, hseen])
    refine ⟨max f f2 + 1, g, h', es ++ es', hg, by simp [hws, hws'], ?_⟩
    rw [show w1 ++ [34] ++ key ++ [34] ++ w2 ++ b!":" ++ w3 ++ t ++ w4 ++ [c] ++ u ++ rest = w1 ++ (34 :: (key ++ 34 :: (w2 ++ (58 :: (w3 ++ t ++ (w4 ++ [c] ++ u ++ rest)))))) by simp,
      e (max f f2) (by omega), show w4 ++ [c] ++ u ++ rest = w4 ++ (c :: (u ++ rest)) by simp, skip_blank h4, punct_complete m (by simp at hc ⊢; omega)]
    simp only [Out.bind, objSep]
    rw [if_neg (by simp at hc; omega)]
    refine ((reader_mono (envM m) f2 (max f f2) (by omega)).2.1 _ _ (by rw [e']; simp)).trans ?_
    rw [e']
    simp [addAll, List.append_assoc]

/-- What reading delivers, exactly. -/
theorem accepted_iff (m : Mode) (junk : List Byte) (n : Nat) (input : Bytes) (v : Json) (rest : Bytes) (ws : List ExnKind) :
    (∃ s, Model.read (envM m) (St.init junk n input) = .ret (some v) s ∧ s.rest = rest ∧ s.warns.map Exn.kind = ws) ↔
      ∃ w t, input = w ++ t ++ rest ∧ Blank w ∧ Value m t rest v ws := by
  constructor
  · rintro ⟨s, h, rfl, rfl⟩
    unfold Model.read at h
    obtain ⟨w, t, es, h1, h2, h3, h4, -⟩ := (acc_all m _).value (item_of_next h)
    refine ⟨w, t, h2, h1, ?_⟩
    rw [h4]
    exact h3
  · rintro ⟨w, t, rfl, hw, hv⟩
    obtain ⟨f, g, h, es, -, hws, e⟩ := gets m hv w (LHist.init junk n) [] hw
    have hr := readNext_of_item (envM m) e (f + 1) (Nat.le_refl _)
    refine ⟨_, (read_eq (envM m) _ (init_exhausted junk n _) (f + 1) ?_).trans hr, rfl, ?_⟩
    · rw [show St.init junk n (w ++ t ++ rest) = ⟨w ++ t ++ rest, true, LHist.init junk n, []⟩ from rfl, hr]; simp
    · exact hws

end Verif.Lemmas
