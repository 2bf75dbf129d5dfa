import Verif.Lemmas.ReaderBasic
/-!
# Lemmas: one induction for all invariants of the reader, and termination
-/
namespace Verif.Lemmas
open Verif.Model

/-- The step conditions of an invariant of the reader: `I` on states, `V` on values, `E` on the entries of an object under
construction, `F` on failures. -/
structure ReaderInv (env : Env) (I : St → Prop) (V : Json → Prop) (E : List (Bytes × Json) → Prop)
    (F : Out Empty → Prop) : Prop where
  tok : ∀ s, I s → (consumeToken env s).Post (fun t s' => I s' ∧ ∀ v, t = .val v → V v) F
  thr : ∀ s k, I s → (k = .notAKey ∨ k = .notJson ∨ k = .unexpected 58 ∨ k = .unexpected 93 ∨ (∃ key, k = .doubleKey key ∧ env.strictOr = true)) →
    F (.throw ⟨k, s.hist⟩)
  nullChild : (∃ s s' ws fuel s3, I s ∧ consumeToken env s = .ret (.punct 58) s' ∧
    readNext env fuel { s' with warns := ws } = .ret none s3) → F (.ub .nullChild)
  fuel : F .fuel
  nil : E []
  obj : ∀ es, E es → V (.obj es)
  arr : ∀ l, (∀ a ∈ l, V a) → V (.arr l)
  push : ∀ es k v, E es → Json.contains es k = false → V v →
    E (if env.sort then Json.sortedPush es k v else Json.push es k v)
  erase : ∀ es k, E es → Json.contains es k = true → env.strictOr = false →
    E (Json.erase es k) ∧ Json.contains (Json.erase es k) k = false
  warn : ∀ s k, I s → env.strictOr = false → I { s with warns := s.warns ++ [⟨.doubleKey k, s.hist⟩] }

variable {env : Env} {I : St → Prop} {V : Json → Prop} {E : List (Bytes × Json) → Prop} {F : Out Empty → Prop}

theorem reader_inv (H : ReaderInv env I V E F) (fuel : Nat) :
    (∀ s, I s → (readNext env fuel s).Post (fun v s' => I s' ∧ ∀ j, v = some j → V j) F) ∧
    (∀ r s, I s → (∀ es, r = some es → E es) → (objectLoop env fuel r s).Post (fun v s' => I s' ∧ V v) F) ∧
    (∀ s, I s → (readArray env fuel s).Post (fun v s' => I s' ∧ V v) F) ∧
    (∀ acc tok s, I s → (∀ a ∈ acc, V a) → (∀ v, tok = .val v → V v) →
      (arrayLoop env fuel acc tok s).Post (fun v s' => I s' ∧ V v) F) := by
  induction fuel with
  | zero => exact ⟨fun _ _ => H.fuel, fun _ _ _ _ => H.fuel, fun _ _ => H.fuel, fun _ _ _ _ _ _ => H.fuel⟩
  | succ fuel ih =>
    obtain ⟨ihN, ihO, ihA, ihL⟩ := ih
    refine ⟨?_, ?_, ?_, ?_⟩
    · intro s hs
      rw [readNext]
      refine Post.bind (H.tok s hs) ?_
      rintro tok s ⟨hs, ht⟩
      cases tok with
      | val v => exact ⟨hs, fun j hj => by simp at hj; subst hj; exact ht v rfl⟩
      | punct c =>
        dsimp only
        split
        · refine Post.bind (ihO none s hs (by simp)) ?_
          rintro v s ⟨hs, hv⟩
          exact ⟨hs, fun j hj => by simp at hj; subst hj; exact hv⟩
        · split
          · refine Post.bind (ihA s hs) ?_
            rintro v s ⟨hs, hv⟩
            exact ⟨hs, fun j hj => by simp at hj; subst hj; exact hv⟩
          · exact ⟨hs, by simp⟩
      | nothing => exact ⟨hs, by simp⟩
    · intro r s hs hr
      rw [objectLoop]
      refine Post.bind (H.tok s hs) ?_
      rintro tok s ⟨hs, ht⟩
      have hE : E (r.getD []) := by
        cases r with
        | none => exact H.nil
        | some es => exact hr es rfl
      dsimp only
      split
      · split
        · exact ⟨hs, H.obj _ H.nil⟩
        · exact H.thr _ _ hs (by simp)
      · skip
        rename_i key
        refine Post.bind_eq (H.tok s hs) ?_
        rintro tok s2 htok ⟨hs2, ht⟩
        split
        · split
          · exact H.thr _ _ hs2 (by simp)
          · rename_i c58
            simp only [ne_eq, Decidable.not_not] at c58
            have hnull : ∀ ws s3, readNext env fuel { s2 with warns := ws } = .ret none s3 → F (.ub .nullChild) :=
              fun ws s3 h => H.nullChild ⟨s, s2, ws, fuel, s3, hs, by rw [htok, c58], h⟩
            have hs := hs2
            generalize hes : r.getD [] = es at *
            by_cases hd : Json.contains es key = true
            · by_cases hst : env.strictOr = true
              · simp only [hd, hst, Bool.and_true, if_true]
                exact H.thr _ _ hs (Or.inr (Or.inr (Or.inr (Or.inr ⟨key, rfl, hst⟩))))
              · simp only [Bool.not_eq_true] at hst
                simp only [hd, hst, Bool.and_false, if_true]
                obtain ⟨he1, he2⟩ := H.erase es key hE hd hst
                refine Post.bind_eq (ihN _ (H.warn s2 key hs hst)) ?_
                rintro child s hrn ⟨hs, hc⟩
                cases child with
                | none => exact hnull _ _ hrn
                | some v =>
                  have hp := H.push _ key v he1 he2 (hc v rfl)
                  refine Post.bind (H.tok s hs) ?_
                  rintro tok s ⟨hs, ht⟩
                  cases tok with
                  | val w => exact ⟨hs, H.obj _ hp⟩
                  | punct c =>
                    dsimp only
                    split
                    · exact ⟨hs, H.obj _ hp⟩
                    · exact ihO _ s hs (by simp; exact hp)
                  | nothing => exact ihO _ s hs (by simp; exact hp)
            · simp only [Bool.not_eq_true] at hd
              simp only [hd, Bool.false_and, if_false, Bool.false_eq_true]
              refine Post.bind_eq (ihN _ hs) ?_
              rintro child s hrn ⟨hs, hc⟩
              cases child with
              | none => exact hnull _ _ hrn
              | some v =>
                have hp := H.push _ key v hE hd (hc v rfl)
                refine Post.bind (H.tok s hs) ?_
                rintro tok s ⟨hs, ht⟩
                cases tok with
                | val w => exact ⟨hs, H.obj _ hp⟩
                | punct c =>
                  dsimp only
                  split
                  · exact ⟨hs, H.obj _ hp⟩
                  · exact ihO _ s hs (by simp; exact hp)
                | nothing => exact ihO _ s hs (by simp; exact hp)
        · exact H.thr _ _ hs2 (by simp)
      · exact H.thr _ _ hs (by simp)
    · intro s hs
      rw [readArray]
      refine Post.bind (H.tok s hs) ?_
      rintro tok s ⟨hs, ht⟩
      split
      · split
        · exact ⟨hs, H.arr _ (by simp)⟩
        · exact ihL _ _ _ hs (by simp) (by simp)
      · exact ihL _ _ _ hs (by simp) ht
    · intro acc tok s hs hacc ht
      rw [arrayLoop.eq_def]
      dsimp only
      refine Post.bind (R := fun v s' => I s' ∧ V v) ?_ ?_
      · split
        · exact ⟨hs, ht _ rfl⟩
        · split
          · exact ihA s hs
          · split
            · exact ihO none s hs (by simp)
            · exact H.thr _ _ hs (by simp)
        · exact H.thr _ _ hs (by simp)
      · rintro child s ⟨hs, hc⟩
        have hacc' : ∀ a ∈ acc ++ [child], V a := by
          intro a ha
          simp only [List.mem_append, List.mem_singleton] at ha
          rcases ha with ha | rfl
          · exact hacc a ha
          · exact hc
        refine Post.bind (H.tok s hs) ?_
        rintro tok s ⟨hs, ht⟩
        split
        · split
          · exact ⟨hs, H.arr _ hacc'⟩
          · split
            · refine Post.bind (H.tok s hs) ?_
              rintro tok s ⟨hs, ht⟩
              exact ihL _ _ _ hs hacc' ht
            · exact H.thr _ _ hs (by simp)
        · exact H.thr _ _ hs (by simp)

/-! ### Termination -/

/-- A stream that is not good is exhausted. -/
def Exhausted (s : St) : Prop := s.good = false → s.rest = []

/-- Number of unread bytes, plus one while the stream is good. -/
def todo (s : St) : Nat := s.rest.length + if s.good then 1 else 0

theorem tok_todo {s s' : St} {t : Tok} (hs : Exhausted s) (h : TokOK s.rest t s')
    (hp : t ≠ .nothing → s'.rest.length < s.rest.length) :
    Exhausted s' ∧ todo s' ≤ todo s ∧ (t ≠ .nothing → todo s' < todo s) := by
  refine ⟨h.bad, ?_, ?_⟩
  · unfold todo
    have h1 := h.suffix.length_le
    by_cases hn : t = .nothing
    · have := h.nothing hn; rw [this]; simp only [Bool.false_eq_true, if_false]; omega
    · have h2 := hp hn
      cases hg : s.good
      · have := hs hg; rw [this] at h2; simp at h2
      · split <;> simp <;> omega
  · intro hn
    have h2 := hp hn
    unfold todo
    cases hg : s.good
    · have := hs hg; rw [this] at h2; simp at h2
    · split <;> simp <;> omega

theorem tok_post_todo (env : Env) (s : St) (hs : Exhausted s) :
    (consumeToken env s).Post (fun t s' => Exhausted s' ∧ todo s' ≤ todo s ∧ (t ≠ .nothing → todo s' < todo s)
      ∧ s'.rest <:+ s.rest) (fun x => x ≠ .fuel) :=
  Post.mono (consumeToken_ok env s hs)
    (fun _ _ h => ⟨(tok_todo hs h.1 h.2).1, (tok_todo hs h.1 h.2).2.1, (tok_todo hs h.1 h.2).2.2, h.1.suffix⟩) (fun _ h => h)

/-- With enough fuel the recursion bound is never hit; the unread bytes only shrink. -/
theorem reader_terminates (env : Env) (fuel : Nat) :
    (∀ s, Exhausted s → 2 * todo s + 1 ≤ fuel → (readNext env fuel s).Post
      (fun _ s' => Exhausted s' ∧ todo s' ≤ todo s ∧ s'.rest <:+ s.rest) (fun x => x ≠ .fuel)) ∧
    (∀ r s, Exhausted s → 2 * todo s + 1 ≤ fuel → (objectLoop env fuel r s).Post
      (fun _ s' => Exhausted s' ∧ todo s' ≤ todo s ∧ s'.rest <:+ s.rest) (fun x => x ≠ .fuel)) ∧
    (∀ s, Exhausted s → 2 * todo s + 2 ≤ fuel → (readArray env fuel s).Post
      (fun _ s' => Exhausted s' ∧ todo s' ≤ todo s ∧ s'.rest <:+ s.rest) (fun x => x ≠ .fuel)) ∧
    (∀ acc tok s, Exhausted s → (tok = .nothing ∧ 1 ≤ fuel ∨ 2 * todo s + 3 ≤ fuel) → (arrayLoop env fuel acc tok s).Post
      (fun _ s' => Exhausted s' ∧ todo s' ≤ todo s ∧ s'.rest <:+ s.rest) (fun x => x ≠ .fuel)) := by
  induction fuel with
  | zero => exact ⟨fun _ _ h => by omega, fun _ _ _ h => by omega, fun _ _ h => by omega, fun _ _ _ _ h => by omega⟩
  | succ fuel ih =>
    obtain ⟨ihN, ihO, ihA, ihL⟩ := ih
    have ret {α : Type} {a : α} {s s0 : St} (h1 : Exhausted s) (h2 : todo s ≤ todo s0) (h3 : s.rest <:+ s0.rest) :
        (Out.ret a s).Post (fun (_ : α) s' => Exhausted s' ∧ todo s' ≤ todo s0 ∧ s'.rest <:+ s0.rest) (fun x => x ≠ .fuel) :=
      ⟨h1, h2, h3⟩
    have lift {α : Type} {o : Out α} {s s0 : St} (h1 : todo s ≤ todo s0) (h2 : s.rest <:+ s0.rest)
        (h : o.Post (fun _ s' => Exhausted s' ∧ todo s' ≤ todo s ∧ s'.rest <:+ s.rest) (fun x => x ≠ .fuel)) :
        o.Post (fun _ s' => Exhausted s' ∧ todo s' ≤ todo s0 ∧ s'.rest <:+ s0.rest) (fun x => x ≠ .fuel) :=
      Post.mono h (fun _ _ h => ⟨h.1, Nat.le_trans h.2.1 h1, h.2.2.trans h2⟩) (fun _ h => h)
    refine ⟨?_, ?_, ?_, ?_⟩
    · intro s0 hs0 hf
      rw [readNext]
      refine Post.bind (tok_post_todo env s0 hs0) ?_
      rintro tok s ⟨hs, hle, hlt, hsuf⟩
      cases tok with
      | val v => exact ret hs hle hsuf
      | punct c =>
        have hlt := hlt (by simp)
        dsimp only
        split
        · refine Post.bind (lift hle hsuf (ihO none s hs (by omega))) ?_
          rintro v s ⟨hs, h⟩
          exact ⟨hs, h⟩
        · split
          · refine Post.bind (lift hle hsuf (ihA s hs (by omega))) ?_
            rintro v s ⟨hs, h⟩
            exact ⟨hs, h⟩
          · exact ret hs hle hsuf
      | nothing => exact ret hs hle hsuf
    · intro r s0 hs0 hf
      rw [objectLoop]
      refine Post.bind (tok_post_todo env s0 hs0) ?_
      rintro tok s1 ⟨hs1, hle1, hlt1, hsuf1⟩
      dsimp only
      split
      · split
        · exact ret hs1 hle1 hsuf1
        · simp [Out.Post]
      · rename_i key _ _
        have hlt1 := hlt1 (by simp)
        refine Post.bind (tok_post_todo env s1 hs1) ?_
        rintro tok s2 ⟨hs2, hle2, hlt2, hsuf2⟩
        split
        · split
          · simp [Out.Post]
          · split
            · simp [Out.Post]
            · have hlt2 := hlt2 (by simp)
              have hR : ∀ s3 : St, s3.rest = s2.rest → s3.good = s2.good →
                  (readNext env fuel s3).Post (fun _ s' => Exhausted s' ∧ todo s' ≤ todo s2 ∧ s'.rest <:+ s2.rest) (fun x => x ≠ .fuel) := by
                intro s3 h1 h2
                have ht : todo s3 = todo s2 := by unfold todo; rw [h1, h2]
                have := ihN s3 (by unfold Exhausted; rw [h1, h2]; exact hs2) (by omega)
                rw [ht, h1] at this
                exact this
              refine Post.bind (hR _ (by split <;> rfl) (by split <;> rfl)) ?_
              rintro child s4 ⟨hs4, hle4, hsuf4⟩
              cases child with
              | none => simp [Out.Post]
              | some v =>
                refine Post.bind (tok_post_todo env s4 hs4) ?_
                rintro tok s5 ⟨hs5, hle5, hlt5, hsuf5⟩
                have hsuf : s5.rest <:+ s0.rest := ((hsuf5.trans hsuf4).trans hsuf2).trans hsuf1
                cases tok with
                | val w => exact ret hs5 (by omega) hsuf
                | punct c =>
                  dsimp only
                  split
                  · exact ret hs5 (by omega) hsuf
                  · exact lift (by omega) hsuf (ihO _ s5 hs5 (by omega))
                | nothing => exact lift (by omega) hsuf (ihO _ s5 hs5 (by omega))
        · simp [Out.Post]
      · simp [Out.Post]
    · intro s0 hs0 hf
      rw [readArray]
      refine Post.bind (tok_post_todo env s0 hs0) ?_
      rintro tok s ⟨hs, hle, hlt, hsuf⟩
      split
      · split
        · exact ret hs hle hsuf
        · have hlt := hlt (by simp)
          exact lift hle hsuf (ihL _ _ _ hs (by omega))
      · by_cases hn : tok = .nothing
        · exact lift hle hsuf (ihL _ _ _ hs (Or.inl ⟨hn, by omega⟩))
        · have hlt := hlt hn
          exact lift hle hsuf (ihL _ _ _ hs (by omega))
    · intro acc tok s0 hs0 hf
      rw [arrayLoop.eq_def]
      dsimp only
      refine Post.bind (R := fun _ s' => (Exhausted s' ∧ todo s' ≤ todo s0 ∧ s'.rest <:+ s0.rest) ∧ 2 * todo s0 + 3 ≤ fuel + 1) ?_ ?_
      · cases tok with
        | val v => exact ⟨⟨hs0, Nat.le_refl _, List.suffix_rfl⟩, by simpa using hf⟩
        | punct c =>
          have hf : 2 * todo s0 + 3 ≤ fuel + 1 := by simpa using hf
          dsimp only
          split
          · exact Post.mono (ihA s0 hs0 (by omega)) (fun _ _ h => ⟨h, hf⟩) (fun _ h => h)
          · split
            · exact Post.mono (ihO none s0 hs0 (by omega)) (fun _ _ h => ⟨h, hf⟩) (fun _ h => h)
            · simp [Out.Post]
        | nothing => simp [Out.Post]
      rintro child s1 ⟨⟨hs1, hle1, hsuf1⟩, hf⟩
      refine Post.bind (tok_post_todo env s1 hs1) ?_
      rintro tok s2 ⟨hs2, hle2, hlt2, hsuf2⟩
      split
      · have hlt2 := hlt2 (by simp)
        split
        · exact ret hs2 (by omega) (hsuf2.trans hsuf1)
        · split
          · refine Post.bind (tok_post_todo env s2 hs2) ?_
            rintro tok s3 ⟨hs3, hle3, hlt3, hsuf3⟩
            refine lift (s := s3) (by omega) ((hsuf3.trans hsuf2).trans hsuf1) (ihL _ _ _ hs3 (by omega))
          · simp [Out.Post]
      · simp [Out.Post]

theorem init_exhausted (jb : List Byte) (jw : Nat) (input : Bytes) : Exhausted (St.init jb jw input) := by
  simp [Exhausted, St.init]

theorem read_post (env : Env) (s : St) (hs : Exhausted s) :
    (read env s).Post (fun _ s' => Exhausted s' ∧ todo s' ≤ todo s ∧ s'.rest <:+ s.rest) (fun x => x ≠ .fuel) := by
  refine (reader_terminates env _).1 s hs ?_
  unfold todo; split <;> omega

end Verif.Lemmas
