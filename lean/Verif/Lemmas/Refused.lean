import Verif.Lemmas.RefusedTok
import Verif.Lemmas.AcceptedAll
/-!
# Lemmas: the texts that end the reader
-/
namespace Verif.Lemmas
open Verif.Model Verif.Spec Verif.Spec.Accepted Verif.Spec.Refused

/-- The reader can go on, or the input is at its end. -/
def Going (s : St) : Prop := s.good = true ∨ s.rest = []

/-- What is known of a token that was read. -/
def TokAt (m : Mode) (rest : Bytes) (warns : List Exn) (tok : Tok) (s : St) : Prop :=
  TokRes m rest warns tok s ∧ (tok = .nothing → NoToken m rest ∧ s.good = false ∧ s.rest = [])

theorem consume_why {m : Mode} {s : St} {r : Reason} (h : why (consumeToken (envM m) s) = some r) : ∃ w x, s.rest = w ++ x ∧ Blank w ∧ BadToken m x r := by
  unfold consumeToken at h
  by_cases hg : s.good = true
  · rw [if_pos hg] at h; exact (tok_out m _ _ _).1 r h
  · rw [if_neg hg] at h; cases h

theorem consume_at {m : Mode} {s : St} (hs : Going s) {tok : Tok} {s' : St} (h : consumeToken (envM m) s = .ret tok s') : TokAt m s.rest s.warns tok s' := by
  refine ⟨consume_sound h, fun e => ?_⟩
  subst e
  unfold consumeToken at h
  by_cases hg : s.good = true
  · rw [if_pos hg] at h
    obtain ⟨h1, h2, h3⟩ := (tok_out m _ _ _).2 _ h
    exact ⟨h3, h2, h1⟩
  · rw [if_neg hg] at h
    cases h
    have hr : s.rest = [] := by rcases hs with hs | hs; exact absurd hs hg; exact hs
    exact ⟨by rw [hr]; exact .blank (by simp [Blank]), by simpa using hg, hr⟩

theorem TokAt.cases {m : Mode} {rest : Bytes} {warns : List Exn} {tok : Tok} {s : St} (h : TokAt m rest warns tok s) :
    (tok = .nothing ∧ NoToken m rest ∧ s.good = false ∧ s.rest = []) ∨
    (∃ v w t ws, tok = .val v ∧ Blank w ∧ rest = w ++ t ++ s.rest ∧ Prim m t s.rest v ws ∧ Going s) ∨
    (∃ c w, tok = .punct c ∧ Blank w ∧ rest = w ++ [c] ++ s.rest ∧ c ∈ b!",:[]{}" ∧ s.good = true) := by
  obtain ⟨h1, h2⟩ := h
  rcases h1 with ⟨rfl, -⟩ | ⟨w, t, es, k1, k2, -, k4, ⟨v, rfl, hp⟩ | ⟨c, rfl, rfl, hc, -, hg⟩⟩
  · exact Or.inl ⟨rfl, h2 rfl⟩
  · exact Or.inr (Or.inl ⟨v, w, t, _, rfl, k1, k2, hp, k4⟩)
  · exact Or.inr (Or.inr ⟨c, w, rfl, k1, k2, hc, hg⟩)

theorem next_value {m : Mode} {f : Nat} {s : St} {v : Json} {s' : St} (h : readNext (envM m) f s = .ret (some v) s') : ValRes m s.rest s.warns v s' := by
  cases f with
  | zero => rw [readNext] at h; cases h
  | succ f => exact (acc_all m f).value (item_of_next h)

theorem ValRes.padded {m : Mode} {rest : Bytes} {warns : List Exn} {v : Json} {s : St} (h : ValRes m rest warns v s) : ∃ t, rest = t ++ s.rest ∧ Padded m t s.rest ∧ Going s := by
  obtain ⟨w, t, es, h1, h2, h3, -, h5⟩ := h
  exact ⟨w ++ t, h2, ⟨w, t, v, _, rfl, h1, h3⟩, h5⟩

theorem prim_str {m : Mode} {t rest : Bytes} {k : Bytes} {ws : List ExnKind} (h : Prim m t rest (.str k) ws) : ∃ u, t = [34] ++ u ++ [34] ∧ Chars m u k ws := by
  generalize hv : Json.str k = v at h
  cases h with
  | str h => cases hv; exact ⟨_, rfl, h⟩
  | int h1 h2 h3 => exfalso; unfold intJson at hv; split at hv <;> cases hv
  | _ => cases hv

/-- What is proved of the reader with some fuel. -/
structure Ends (m : Mode) (f : Nat) : Prop where
  array : ∀ s r, s.good = true → why (readArray (envM m) f s) = some r → StopsItems m true s.rest r
  items : ∀ first acc tok s rest warns r, TokAt m rest warns tok s → (first = true → tok ≠ .punct 93) → why (arrayLoop (envM m) f acc tok s) = some r → StopsItems m first rest r
  object : ∀ r0 s r seen, Going s → (keys (r0.getD [])).Nodup → (∀ x, x ∈ seen ↔ x ∈ keys (r0.getD [])) → why (objectLoop (envM m) f r0 s) = some r →
    StopsMembers m r0.isNone seen s.rest r
  next : ∀ s r, s.good = true → why (readNext (envM m) f s) = some r → StopsValue m s.rest r

theorem next_none {m : Mode} {f : Nat} {s : St} (hs : s.good = true) {s' : St} (h : readNext (envM m) f s = .ret none s') : Nothing m s.rest := by
  cases f with
  | zero => rw [readNext] at h; cases h
  | succ f =>
    rw [readNext_succ] at h
    obtain ⟨tok, s1, h1, h2⟩ := bind_ret h
    rcases (consume_at (Or.inl hs) h1).cases with ⟨rfl, k, -⟩ | ⟨v, w, t, ws, rfl, -⟩ | ⟨c, w, rfl, k1, k2, k3, -⟩
    · exact Or.inl k
    · cases h2
    · simp only at h2
      by_cases c1 : c = 123
      · rw [if_pos c1] at h2
        obtain ⟨x, s2, h3, h4⟩ := bind_ret h2
        cases h4
      rw [if_neg c1] at h2
      by_cases c2 : c = 91
      · rw [if_pos c2] at h2
        obtain ⟨x, s2, h3, h4⟩ := bind_ret h2
        cases h4
      exact Or.inr ⟨w, c, s1.rest, k2, k1, by simp at k3 ⊢; omega⟩

theorem why_map {α β : Type} {o : Out α} {g : α → β} {r : Reason} (h : why (o.bind fun v s => .ret (g v) s) = some r) : why o = some r := by
  cases o with
  | ret a s => cases h
  | _ => exact h

theorem ends_all (m : Mode) (f : Nat) : Ends m f := by
  induction f with
  | zero =>
    exact ⟨fun s r _ h => (by rw [readArray] at h; cases h), fun first acc tok s rest warns r _ _ h => (by rw [arrayLoop] at h; cases h),
      fun r0 s r seen _ _ _ h => (by rw [objectLoop] at h; cases h), fun s r _ h => (by rw [readNext] at h; cases h)⟩
  | succ f ih =>
    refine ⟨?_, ?_, ?_, ?_⟩
    · intro s r hs h
      rw [readArray_succ] at h
      rcases why_bind h with h | ⟨tok, s1, h1, h2⟩
      · obtain ⟨w, x, k1, k2, k3⟩ := consume_why h
        rw [k1]; exact .item (.token k2 k3)
      · have ht := consume_at (Or.inl hs) h1
        have key : (tok ≠ .punct 93) → why (arrayLoop (envM m) f [] tok s1) = some r → StopsItems m true s.rest r :=
          fun hne h => ih.items true [] tok s1 s.rest s.warns r ht (fun _ => hne) h
        cases tok with
        | nothing => exact key (by simp) h2
        | val x => exact key (by simp) h2
        | punct c =>
          simp only at h2
          by_cases c1 : c = 93
          · rw [if_pos c1] at h2; cases h2
          · rw [if_neg c1] at h2; exact key (by simpa using c1) h2
    · intro first acc tok s rest warns r ht hne h
      rw [arrayLoop_succ] at h
      rcases why_bind h with h | ⟨v, s1, h1, h2⟩
      · rcases ht.cases with ⟨rfl, k, -⟩ | ⟨v, w, t, ws, rfl, -⟩ | ⟨c, w, rfl, k1, k2, k3, k4⟩
        · simp only [arrItem, why, Option.some.injEq] at h
          subst h
          exact .noItem (Or.inl k)
        · cases h
        · simp only [arrItem] at h
          by_cases c1 : c = 91
          · rw [if_pos c1] at h
            have := StopsValue.array k1 (ih.array _ _ k4 h)
            rw [k2, c1]; exact .item this
          rw [if_neg c1] at h
          by_cases c2 : c = 123
          · rw [if_pos c2] at h
            have := StopsValue.object k1 (ih.object none _ _ [] (Or.inl k4) List.nodup_nil (fun x => Iff.rfl) h)
            rw [k2, c2]; exact .item this
          rw [if_neg c2] at h
          simp only [why, Option.some.injEq] at h
          subst h
          refine .noItem (Or.inr ⟨w, c, s.rest, k2, k1, ?_⟩)
          cases first with
          | true =>
            have : c ≠ 93 := by simpa using hne rfl
            simp at k3 ⊢; omega
          | false => simp at k3 ⊢; omega
      · obtain ⟨t, k1, k2, k3⟩ := ((acc_all m f).fromTok ht.1 h1).padded
        rcases why_bind h2 with h | ⟨tok2, s2, h3, h4⟩
        · obtain ⟨w, x, l1, l2, l3⟩ := consume_why h
          rw [k1, l1, ← List.append_assoc]
          rw [l1] at k2
          exact .separator k2 l2 l3
        · rw [k1]
          rcases (consume_at k3 h3).cases with ⟨rfl, l, -⟩ | ⟨v2, w, t2, ws, rfl, l1, l2, l3, -⟩ | ⟨c, w, rfl, l1, l2, l3, l4⟩
          · simp only [arrSep, why, Option.some.injEq] at h4
            subst h4
            exact .noSeparator k2 (Or.inl l)
          · simp only [arrSep, why, Option.some.injEq] at h4
            subst h4
            exact .noSeparator k2 (Or.inr (Or.inr ⟨w, t2, s2.rest, v2, ws, l2, l1, l3⟩))
          · simp only [arrSep] at h4
            by_cases c1 : c = 93
            · rw [if_pos c1] at h4; cases h4
            rw [if_neg c1] at h4
            by_cases c2 : c = 44
            · rw [if_pos c2] at h4
              have hm : StopsItems m false s2.rest r := by
                rcases why_bind h4 with h | ⟨tok3, s3, h5, h6⟩
                · obtain ⟨w, x, n1, n2, n3⟩ := consume_why h
                  rw [n1]; exact .item (.token n2 n3)
                · exact ih.items false _ _ _ _ _ _ (consume_at (Or.inl l4) h5) (fun e => by cases e) h6
              rw [l2, c2] at k2 ⊢
              rw [← List.append_assoc, ← List.append_assoc]
              exact .more k2 l1 hm
            · rw [if_neg c2] at h4
              simp only [why, Option.some.injEq] at h4
              subst h4
              exact .noSeparator k2 (Or.inr (Or.inl ⟨w, c, s2.rest, l2, l1, by simp at l3 ⊢; omega⟩))
    · intro r0 s r seen hs hn hseen h
      rw [objectLoop_succ] at h
      rcases why_bind h with h | ⟨tok, s1, h1, h2⟩
      · obtain ⟨w, x, k1, k2, k3⟩ := consume_why h
        rw [k1]; exact .key k2 k3
      rcases (consume_at hs h1).cases with ⟨rfl, k, -⟩ | ⟨v, w1, t1, ws, rfl, k1, k2, k3, k4⟩ | ⟨c, w, rfl, k1, k2, k3, k4⟩
      · simp only [objKey, why, Option.some.injEq] at h2
        subst h2
        exact .noKey (Or.inl k)
      · by_cases hstr : ∃ key, v = .str key
        · obtain ⟨key, rfl⟩ := hstr
          obtain ⟨u, rfl, hu⟩ := prim_str k3
          simp only [objKey] at h2
          have hkey : ∀ w2, Blank w2 → Key m (w1 ++ [34] ++ u ++ [34] ++ w2) key := fun w2 hw2 => ⟨w1, u, ws, w2, rfl, k1, hu, hw2⟩
          have hkey0 : Key m (w1 ++ [34] ++ u ++ [34]) key := by have := hkey [] (by simp [Blank]); rwa [List.append_nil] at this
          have hrest : s.rest = w1 ++ [34] ++ u ++ [34] ++ s1.rest := by rw [k2]; simp
          rw [hrest]
          rcases why_bind h2 with h | ⟨tok2, s2, h3, h4⟩
          · obtain ⟨w, x, l1, l2, l3⟩ := consume_why h
            rw [l1, ← List.append_assoc]
            exact .colon (hkey w l2) l3
          rcases (consume_at k4 h3).cases with ⟨rfl, l, -⟩ | ⟨v2, w, t2, ws2, rfl, l1, l2, l3, -⟩ | ⟨c, w2, rfl, l1, l2, l3, l4⟩
          · simp only [objColon, why, Option.some.injEq] at h4
            subst h4
            exact .noColon hkey0 (Or.inl l)
          · simp only [objColon, why, Option.some.injEq] at h4
            subst h4
            exact .noColon hkey0 (Or.inr (Or.inr ⟨w, t2, s2.rest, v2, ws2, l2, l1, l3⟩))
          · simp only [objColon] at h4
            by_cases c1 : c = 58
            · rw [if_neg (by simp [c1])] at h4
              rw [l2, c1, ← List.append_assoc, ← List.append_assoc]
              have hk := hkey w2 l1
              have hmem : Json.contains (r0.getD []) key = true ↔ key ∈ seen := by rw [hseen, contains_iff]
              by_cases c2 : (Json.contains (r0.getD []) key && (envM m).strictOr) = true
              · rw [if_pos c2] at h4
                simp only [why, Option.some.injEq] at h4
                subst h4
                rw [Bool.and_eq_true, hmem] at c2
                exact .again hk c2.2 c2.1
              rw [if_neg c2] at h4
              have hstrict : m.strict = true → key ∉ seen := by
                intro hs hk
                exact c2 (by rw [hmem.mpr hk]; exact hs)
              obtain ⟨s2', e1, e2, e3⟩ : ∃ s2', (if Json.contains (r0.getD []) key then warnDup s2 key else s2) = s2' ∧ s2'.rest = s2.rest ∧ s2'.good = true := by
                by_cases hk : Json.contains (r0.getD []) key = true
                · rw [if_pos hk]; exact ⟨_, rfl, rfl, l4⟩
                · rw [if_neg hk]; exact ⟨_, rfl, rfl, l4⟩
              rw [e1] at h4
              rw [← e2]
              rcases why_bind h4 with h | ⟨child, s3, h5, h6⟩
              · exact .value hk hstrict (ih.next _ _ e3 h)
              cases child with
              | none =>
                simp only [objChild, why, Option.some.injEq] at h6
                subst h6
                exact .noValue hk hstrict (next_none e3 h5)
              | some x =>
                simp only [objChild] at h6
                obtain ⟨t3, n1, n2, n3⟩ := (next_value h5).padded
                have hadd := addOne_nodup (envM m) (r0.getD []) key x hn
                rw [n1, ← List.append_assoc]
                rcases why_bind h6 with h | ⟨tok, s4, h7, h8⟩
                · obtain ⟨w, y, o1, o2, o3⟩ := consume_why h
                  rw [o1] at n2 ⊢
                  rw [← List.append_assoc]
                  exact .separator hk hstrict n2 o2 o3
                rcases (consume_at n3 h7).cases with ⟨rfl, o1, o2, o3⟩ | ⟨v2, w, t2, ws2, rfl, -⟩ | ⟨c', w4, rfl, o1, o2, o3, o4⟩
                · simp only [objSep] at h8
                  have : r = .error .notAKey := by
                    cases f with
                    | zero => rw [objectLoop] at h8; cases h8
                    | succ f =>
                      rw [objectLoop_succ] at h8
                      unfold consumeToken at h8
                      rw [o2] at h8
                      simp only [Bool.false_eq_true, if_false, Out.bind, objKey, why, Option.some.injEq] at h8
                      exact h8.symm
                  subst this
                  exact .noEnd hk hstrict n2 o1
                · cases h8
                · simp only [objSep] at h8
                  by_cases c3 : c' = 125
                  · rw [if_pos c3] at h8; cases h8
                  rw [if_neg c3] at h8
                  have := ih.object (some (addEntry (envM m) (dropKey (r0.getD []) key) key x)) s4 r (key :: seen) (Or.inl o4) hadd.1 (by
                    intro z
                    rw [Option.getD_some, hadd.2 z, List.mem_cons, List.mem_cons, hseen]) h8
                  rw [o2] at n2 ⊢
                  rw [← List.append_assoc, ← List.append_assoc]
                  exact .more hk hstrict n2 o1 (by simp at o3 ⊢; omega) this
            · rw [if_pos c1] at h4
              simp only [why, Option.some.injEq] at h4
              subst h4
              exact .noColon hkey0 (Or.inr (Or.inl ⟨w2, c, s2.rest, l2, l1, by simp at l3 ⊢; omega⟩))
        · have : r = .error .notAKey := by
            cases v with
            | str key => exact absurd ⟨key, rfl⟩ hstr
            | _ => simp only [objKey, why, Option.some.injEq] at h2; exact h2.symm
          subst this
          exact .noKey (Or.inr (Or.inr ⟨w1, t1, s1.rest, v, ws, k2, k1, k3, fun x e => hstr ⟨x, e⟩⟩))
      · simp only [objKey] at h2
        by_cases c1 : r0.isNone ∧ c = 125
        · rw [if_pos c1] at h2; cases h2
        · rw [if_neg c1] at h2
          simp only [why, Option.some.injEq] at h2
          subst h2
          refine .noKey (Or.inr (Or.inl ⟨w, c, s1.rest, k2, k1, ?_⟩))
          cases hr : r0.isNone with
          | true =>
            rw [hr] at c1
            simp at k3 c1 ⊢; omega
          | false => simp at k3 ⊢; omega
    · intro s r hs h
      rw [readNext_succ] at h
      rcases why_bind h with h | ⟨tok, s1, h1, h2⟩
      · obtain ⟨w, x, k1, k2, k3⟩ := consume_why h
        rw [k1]; exact .token k2 k3
      rcases (consume_at (Or.inl hs) h1).cases with ⟨rfl, k, -⟩ | ⟨v, w, t, ws, rfl, -⟩ | ⟨c, w, rfl, k1, k2, k3, k4⟩
      · cases h2
      · cases h2
      · simp only at h2
        by_cases c1 : c = 123
        · rw [if_pos c1] at h2
          have := StopsValue.object k1 (ih.object none _ _ [] (Or.inl k4) List.nodup_nil (fun x => Iff.rfl) (why_map h2))
          rw [k2, c1]; exact this
        rw [if_neg c1] at h2
        by_cases c2 : c = 91
        · rw [if_pos c2] at h2
          have := StopsValue.array k1 (ih.array _ _ k4 (why_map h2))
          rw [k2, c2]; exact this
        rw [if_neg c2] at h2
        cases h2

end Verif.Lemmas
