import Verif.Lemmas.AcceptedTok
/-!
# Lemmas: the texts the reader accepts
-/
namespace Verif.Lemmas
open Verif.Model Verif.Spec Verif.Spec.Accepted

theorem bind_ret {α β : Type} {o : Out α} {f : α → St → Out β} {b : β} {s' : St} (h : o.bind f = .ret b s') : ∃ a s, o = .ret a s ∧ f a s = .ret b s' := by
  cases o with
  | ret a s => exact ⟨a, s, rfl, h⟩
  | _ => cases h

theorem consume_sound {m : Mode} {s : St} {tok : Tok} {s' : St} (h : consumeToken (envM m) s = .ret tok s') : TokRes m s.rest s.warns tok s' := by
  unfold consumeToken at h
  by_cases hg : s.good = true
  · rw [if_pos hg] at h; exact tok_sound m _ _ _ _ _ h
  · rw [if_neg hg] at h; cases h; exact Or.inl ⟨rfl, by simpa using hg⟩

/-- What a value that was read looks like. -/
def ValRes (m : Mode) (rest : Bytes) (warns : List Exn) (v : Json) (s' : St) : Prop :=
  ∃ w t es, Blank w ∧ rest = w ++ t ++ s'.rest ∧ Value m t s'.rest v (es.map Exn.kind) ∧ s'.warns = warns ++ es ∧ (s'.good = true ∨ s'.rest = [])

theorem item_of_next {env : Env} {f : Nat} {s : St} {v : Json} {s' : St} (h : readNext env (f + 1) s = .ret (some v) s') : item env f s = .ret v s' := by
  rw [readNext_succ] at h
  obtain ⟨tok, s1, h1, h2⟩ := bind_ret h
  unfold item
  rw [h1]
  simp only [Out.bind]
  cases tok with
  | nothing => cases h2
  | val x => cases h2; rfl
  | punct c =>
    simp only at h2
    by_cases c1 : c = 123
    · rw [if_pos c1] at h2
      obtain ⟨x, s2, h3, h4⟩ := bind_ret h2
      cases h4
      rw [arrItem, if_neg (by omega), if_pos c1]; exact h3
    · rw [if_neg c1] at h2
      by_cases c2 : c = 91
      · rw [if_pos c2] at h2
        obtain ⟨x, s2, h3, h4⟩ := bind_ret h2
        cases h4
        rw [arrItem, if_pos c2]; exact h3
      · rw [if_neg c2] at h2; cases h2

/-- What is proved of the reader with some fuel. -/
structure Acc (m : Mode) (f : Nat) : Prop where
  array : ∀ s v s', readArray (envM m) f s = .ret v s' → ∃ t es, s.rest = t ++ s'.rest ∧ Value m (b!"[" ++ t) s'.rest v (es.map Exn.kind) ∧ s'.warns = s.warns ++ es ∧ s'.good = true
  items : ∀ acc tok s v s' rest warns, TokRes m rest warns tok s → arrayLoop (envM m) f acc tok s = .ret v s' →
    ∃ t vs es, rest = t ++ s'.rest ∧ Items m t s'.rest vs (es.map Exn.kind) ∧ v = .arr (acc ++ vs) ∧ s'.warns = warns ++ es ∧ s'.good = true
  object : ∀ r s v s' seen, (keys (r.getD [])).Nodup → (∀ x, x ∈ seen ↔ x ∈ keys (r.getD [])) → objectLoop (envM m) f r s = .ret v s' →
    (s'.good = true ∨ s'.rest = []) ∧ ∃ t es, s.rest = t ++ s'.rest ∧ s'.warns = s.warns ++ es ∧
      ((r = none ∧ v = .obj [] ∧ es = [] ∧ ∃ w, Blank w ∧ t = w ++ b!"}") ∨
        ∃ ents, v = .obj (addAll (envM m) (r.getD []) ents) ∧ Members m seen t s'.rest ents (es.map Exn.kind))

theorem Acc.fromTok {m : Mode} {f : Nat} (h : Acc m f) {rest : Bytes} {warns : List Exn} {tok : Tok} {s : St} (ht : TokRes m rest warns tok s) {v : Json} {s' : St}
    (hi : arrItem (envM m) f tok s = .ret v s') : ValRes m rest warns v s' := by
  rcases ht with ⟨rfl, -⟩ | ⟨w, t, es, h1, h2, h3, h4, ⟨x, rfl, hp⟩ | ⟨c, rfl, rfl, hc, rfl, hg⟩⟩
  · cases hi
  · cases hi; exact ⟨w, t, es, h1, h2, .prim hp, h3, h4⟩
  · simp only [arrItem] at hi
    by_cases c1 : c = 91
    · rw [if_pos c1] at hi
      obtain ⟨u, es', k1, k2, k3, k4⟩ := h.array _ _ _ hi
      exact ⟨w, b!"[" ++ u, es', h1, by rw [h2, k1, c1]; simp, k2, by rw [k3, h3]; simp, Or.inl k4⟩
    · rw [if_neg c1] at hi
      by_cases c2 : c = 123
      · rw [if_pos c2] at hi
        obtain ⟨k0, u, es', k1, k2, k3⟩ := h.object none s v s' [] List.nodup_nil (fun x => Iff.rfl) hi
        refine ⟨w, b!"{" ++ u, es', h1, by rw [h2, k1, c2]; simp, ?_, by rw [k2, h3]; simp, k0⟩
        rcases k3 with ⟨-, rfl, rfl, w', hw', rfl⟩ | ⟨ents, rfl, k4⟩
        · exact .obj0 hw'
        · rw [Option.getD_none, addAll_nil]
          exact .obj k4
      · rw [if_neg c2] at hi; cases hi

theorem Acc.value {m : Mode} {f : Nat} (h : Acc m f) {s : St} {v : Json} {s' : St} (hi : item (envM m) f s = .ret v s') : ValRes m s.rest s.warns v s' := by
  obtain ⟨tok, s1, h3, h4⟩ := bind_ret hi
  exact h.fromTok (consume_sound h3) h4

theorem acc_all (m : Mode) (f : Nat) : Acc m f := by
  induction f with
  | zero =>
    have h1 : ∀ s v s', readArray (envM m) 0 s = .ret v s' → False := fun s v s' h => by rw [readArray] at h; cases h
    have h2 : ∀ r s v s', objectLoop (envM m) 0 r s = .ret v s' → False := fun r s v s' h => by rw [objectLoop] at h; cases h
    exact ⟨fun s v s' h => (h1 _ _ _ h).elim, (fun acc tok s v s' rest warns _ h => by rw [arrayLoop] at h; cases h), fun r s v s' seen _ _ h => (h2 _ _ _ _ h).elim⟩
  | succ f ih =>
    have hA : ∀ s v s', readArray (envM m) (f + 1) s = .ret v s' → ∃ t es, s.rest = t ++ s'.rest ∧ Value m (b!"[" ++ t) s'.rest v (es.map Exn.kind) ∧ s'.warns = s.warns ++ es ∧ s'.good = true := by
      intro s v s' h
      rw [readArray_succ] at h
      obtain ⟨tok, s1, h1, h2⟩ := bind_ret h
      have ht := consume_sound h1
      have key : arrayLoop (envM m) f [] tok s1 = .ret v s' → ∃ t es, s.rest = t ++ s'.rest ∧ Value m (b!"[" ++ t) s'.rest v (es.map Exn.kind) ∧ s'.warns = s.warns ++ es ∧ s'.good = true := by
        intro h
        obtain ⟨t, vs, es, k1, k2, k3, k4, k5⟩ := ih.items [] tok s1 v s' _ _ ht h
        exact ⟨t, es, k1, by rw [k3]; exact .arr k2, k4, k5⟩
      cases tok with
      | nothing => exact key h2
      | val x => exact key h2
      | punct c =>
        simp only at h2
        by_cases c1 : c = 93
        · rw [if_pos c1] at h2
          cases h2
          rcases ht with ⟨h, -⟩ | ⟨w, t, es, k1, k2, k3, k4, ⟨x, hx, hp⟩ | ⟨c', h, rfl, k5, rfl, k6⟩⟩
          · cases h
          · cases hx
          · cases h
            exact ⟨w ++ b!"]", [], by rw [k2, c1], by rw [← List.append_assoc]; exact .arr0 k1, k3, k6⟩
        · rw [if_neg c1] at h2; exact key h2
    have hO : ∀ r s v s' seen, (keys (r.getD [])).Nodup → (∀ x, x ∈ seen ↔ x ∈ keys (r.getD [])) → objectLoop (envM m) (f + 1) r s = .ret v s' →
        (s'.good = true ∨ s'.rest = []) ∧ ∃ t es, s.rest = t ++ s'.rest ∧ s'.warns = s.warns ++ es ∧
          ((r = none ∧ v = .obj [] ∧ es = [] ∧ ∃ w, Blank w ∧ t = w ++ b!"}") ∨
            ∃ ents, v = .obj (addAll (envM m) (r.getD []) ents) ∧ Members m seen t s'.rest ents (es.map Exn.kind)) := by
      intro r s v s' seen hn hseen h
      rw [objectLoop_succ] at h
      obtain ⟨tok, s1, h1, h2⟩ := bind_ret h
      rcases consume_sound h1 with ⟨rfl, -⟩ | ⟨w1, t1, es1, k1, k2, k3, k4, ⟨x, rfl, hp⟩ | ⟨c, rfl, rfl, k5, rfl, k6⟩⟩
      · cases h2
      · cases x with
        | str key =>
          simp only [objKey] at h2
          generalize hv0 : Json.str key = v0 at hp
          generalize hw0 : es1.map Exn.kind = ws0 at hp
          cases hp with
          | @str kt _ kv _ hkey =>
            cases hv0
            obtain ⟨tok, s2, h3, h4⟩ := bind_ret h2
            rcases consume_sound h3 with ⟨rfl, -⟩ | ⟨w2, t2, es2, l1, l2, l3, l4, ⟨x, rfl, hp⟩ | ⟨c, rfl, rfl, l5, rfl, l6⟩⟩
            · cases h4
            · cases h4
            · simp only [objColon] at h4
              by_cases c1 : c ≠ 58
              · rw [if_pos c1] at h4; cases h4
              rw [if_neg c1] at h4
              have c1 : c = 58 := Classical.not_not.mp c1
              by_cases c2 : (Json.contains (r.getD []) key && (envM m).strictOr) = true
              · rw [if_pos c2] at h4; cases h4
              rw [if_neg c2] at h4
              obtain ⟨child, s3, h5, h6⟩ := bind_ret h4
              cases child with
              | none => cases h6
              | some x =>
                simp only [objChild] at h6
                have hmem : Json.contains (r.getD []) key = true ↔ key ∈ seen := by rw [hseen, contains_iff]
                have hstrict : m.strict = true → key ∉ seen := by
                  intro hs hk
                  exact c2 (by rw [hmem.mpr hk]; exact hs)
                obtain ⟨es3, e3, hs3⟩ : ∃ es3 : List Exn, es3.map Exn.kind = again seen key ∧
                    (if Json.contains (r.getD []) key then warnDup s2 key else s2) = { s2 with warns := s2.warns ++ es3 } := by
                  by_cases hk : key ∈ seen
                  · exact ⟨[⟨.doubleKey key, s2.hist⟩], by simp [again, hk], by rw [if_pos (hmem.mpr hk)]; rfl⟩
                  · exact ⟨[], by simp [again, hk], by rw [if_neg (fun h => hk (hmem.mp h))]; simp⟩
                rw [hs3] at h5
                have hval : ValRes m s2.rest (s2.warns ++ es3) x s3 := by
                  cases f with
                  | zero => rw [readNext] at h5; cases h5
                  | succ f =>
                    have := (reader_mono (envM m) (f + 1) (f + 2) (by omega)).1 _ (by rw [h5]; simp)
                    rw [h5] at this
                    exact ih.value (item_of_next this)
                obtain ⟨w3, t3, es4, m1, m2, m3, m4, m5⟩ := hval
                obtain ⟨tok, s4, h7, h8⟩ := bind_ret h6
                have hadd := addOne_nodup (envM m) (r.getD []) key x hn
                rcases consume_sound h7 with ⟨rfl, n0⟩ | ⟨w4, t4, es5, n1, n2, n3, n4, ⟨y, rfl, hp⟩ | ⟨c', rfl, rfl, n5, rfl, n6⟩⟩
                · -- nothing left: no key can follow
                  simp only [objSep] at h8
                  cases f with
                  | zero => rw [objectLoop] at h8; cases h8
                  | succ f =>
                    rw [objectLoop_succ] at h8
                    obtain ⟨tok, s5, h9, h10⟩ := bind_ret h8
                    unfold consumeToken at h9
                    rw [n0] at h9
                    cases h9
                    cases h10
                · cases h8
                  refine ⟨n4, w1 ++ [34] ++ kt ++ [34] ++ w2 ++ b!":" ++ w3 ++ t3 ++ w4 ++ t4, es1 ++ es3 ++ es4 ++ es5, ?_, ?_, Or.inr ⟨[(key, x)], ?_, ?_⟩⟩
                  · rw [k2, l2, m2, n2, c1]; simp
                  · rw [n3, m4, l3, k3]; simp
                  · rfl
                  · rw [n2] at m3
                    simp only [List.map_append, e3, hw0]
                    exact .stray k1 hkey l1 hstrict m1 m3 n1 hp
                · simp only [objSep] at h8
                  by_cases c3 : c' = 125
                  · rw [if_pos c3] at h8
                    cases h8
                    refine ⟨n4, w1 ++ [34] ++ kt ++ [34] ++ w2 ++ b!":" ++ w3 ++ t3 ++ w4 ++ b!"}", es1 ++ es3 ++ es4, ?_, ?_, Or.inr ⟨[(key, x)], ?_, ?_⟩⟩
                    · rw [k2, l2, m2, n2, c1, c3]; simp
                    · rw [n3, m4, l3, k3]; simp
                    · rfl
                    · rw [n2, c3] at m3
                      simp only [List.map_append, e3, hw0]
                      exact .last k1 hkey l1 hstrict m1 m3 n1
                  · rw [if_neg c3] at h8
                    obtain ⟨o1, t5, es6, o2, o3, o4⟩ := ih.object (some (addEntry (envM m) (dropKey (r.getD []) key) key x)) s4 v s' (key :: seen) hadd.1 (by
                      intro z
                      rw [Option.getD_some, hadd.2 z, List.mem_cons, List.mem_cons, hseen]) h8
                    rcases o4 with ⟨h, -⟩ | ⟨ents, o5, o6⟩
                    · cases h
                    refine ⟨o1, w1 ++ [34] ++ kt ++ [34] ++ w2 ++ b!":" ++ w3 ++ t3 ++ w4 ++ [c'] ++ t5, es1 ++ es3 ++ es4 ++ es6, ?_, ?_, Or.inr ⟨(key, x) :: ents, ?_, ?_⟩⟩
                    · rw [k2, l2, m2, n2, o2, c1]; simp
                    · rw [o3, n3, m4, l3, k3]; simp
                    · rw [o5]; rfl
                    · rw [n2, o2] at m3
                      simp only [List.map_append, e3, hw0]
                      exact .more k1 hkey l1 hstrict m1 (by simpa using m3) n1 (by simp at n5 ⊢; omega) o6
          | int h1 h2 h3 => exfalso; unfold intJson at hv0; split at hv0 <;> cases hv0
          | _ => cases hv0
        | _ => cases h2
      · simp only [objKey] at h2
        by_cases c1 : r.isNone ∧ c = 125
        · rw [if_pos c1] at h2
          cases h2
          refine ⟨Or.inl k6, w1 ++ b!"}", [], by rw [k2, c1.2], k3, Or.inl ⟨?_, rfl, rfl, w1, k1, rfl⟩⟩
          cases r with
          | none => rfl
          | some _ => simp at c1
        · rw [if_neg c1] at h2; cases h2
    have hV : ∀ (rest : Bytes) (warns : List Exn) (tok : Tok) (s : St), TokRes m rest warns tok s → ∀ v s', arrItem (envM m) f tok s = .ret v s' → ValRes m rest warns v s' :=
      fun rest warns tok s ht v s' h => ih.fromTok ht h
    have hL : ∀ acc tok s v s' rest warns, TokRes m rest warns tok s → arrayLoop (envM m) (f + 1) acc tok s = .ret v s' →
        ∃ t vs es, rest = t ++ s'.rest ∧ Items m t s'.rest vs (es.map Exn.kind) ∧ v = .arr (acc ++ vs) ∧ s'.warns = warns ++ es ∧ s'.good = true := by
      intro acc tok s v s' rest warns ht h
      rw [arrayLoop_succ] at h
      obtain ⟨x, s1, h1, h2⟩ := bind_ret h
      obtain ⟨w1, t1, es1, k1, k2, k3, k4, k5⟩ := hV _ _ _ _ ht _ _ h1
      obtain ⟨tok, s2, h3, h4⟩ := bind_ret h2
      rcases consume_sound h3 with ⟨rfl, -⟩ | ⟨w2, t2, es2, l1, l2, l3, l4, ⟨y, rfl, hp⟩ | ⟨c, rfl, rfl, l5, rfl, l6⟩⟩
      · cases h4
      · cases h4
      · simp only [arrSep] at h4
        by_cases c1 : c = 93
        · rw [if_pos c1] at h4
          cases h4
          rw [l2, c1] at k3
          exact ⟨w1 ++ t1 ++ w2 ++ b!"]", [x], es1, by rw [k2, l2, c1]; simp, .last k1 k3 l1, rfl, by rw [l3, k4]; simp, l6⟩
        · rw [if_neg c1] at h4
          by_cases c2 : c = 44
          · rw [if_pos c2] at h4
            obtain ⟨tok, s3, h5, h6⟩ := bind_ret h4
            obtain ⟨t3, vs, es3, n1, n2, n3, n4, n5⟩ := ih.items _ _ _ _ _ _ _ (consume_sound h5) h6
            rw [l2, c2, n1] at k3
            refine ⟨w1 ++ t1 ++ w2 ++ b!"," ++ t3, x :: vs, es1 ++ es3, by rw [k2, l2, n1, c2]; simp, ?_, by rw [n3]; simp, by rw [n4, l3, k4]; simp, n5⟩
            rw [List.map_append]
            exact .more k1 (by simpa using k3) l1 n2
          · rw [if_neg c2] at h4; cases h4
    exact ⟨hA, hL, hO⟩

end Verif.Lemmas
