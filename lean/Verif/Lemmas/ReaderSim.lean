import Verif.Lemmas.ReaderInv
import Verif.Lemmas.ReaderEq
import Verif.Lemmas.Object
/-!
# Lemmas: one induction for all two-run properties of the reader (simulation)
-/
namespace Verif.Lemmas
open Verif.Model

theorem bind_eq_ret {α β : Type} {o : Out α} {f : α → St → Out β} {b : β} {s' : St} :
    o.bind f = .ret b s' ↔ ∃ a s, o = .ret a s ∧ f a s = .ret b s' := by
  cases o <;> simp [Out.bind]
  exact ⟨fun h => ⟨_, _, ⟨rfl, rfl⟩, h⟩, by rintro ⟨_, _, ⟨rfl, rfl⟩, h⟩; exact h⟩

/-- Relation on tokens: same punctuation, related primitives; string primitives are equal. -/
inductive TokRel (VR : Json → Json → Prop) : Tok → Tok → Prop where
  | nothing : TokRel VR .nothing .nothing
  | punct (c : Byte) : TokRel VR (.punct c) (.punct c)
  | str (k : Bytes) : VR (.str k) (.str k) → TokRel VR (.val (.str k)) (.val (.str k))
  | val (v w : Json) : VR v w → (∀ k, v ≠ .str k) → (∀ k, w ≠ .str k) → TokRel VR (.val v) (.val w)

theorem TokRel.refl {VR : Json → Json → Prop} (h : ∀ v, PrimOK v → VR v v) (t : Tok) (hp : ∀ v, t = .val v → PrimOK v) :
    TokRel VR t t := by
  cases t with
  | nothing => exact .nothing
  | punct c => exact .punct c
  | val v =>
    by_cases hv : ∃ k, v = .str k
    · obtain ⟨k, rfl⟩ := hv; exact .str k (h _ (hp _ rfl))
    · exact .val v v (h _ (hp _ rfl)) (fun k hk => hv ⟨k, hk⟩) (fun k hk => hv ⟨k, hk⟩)

/-- Pointwise relation of lists. -/
inductive ListRel {α : Type} (R : α → α → Prop) : List α → List α → Prop where
  | nil : ListRel R [] []
  | cons {a b l m} : R a b → ListRel R l m → ListRel R (a :: l) (b :: m)

theorem ListRel.snoc {α : Type} {R : α → α → Prop} {l m : List α} {a b : α} (h : ListRel R l m) (hab : R a b) :
    ListRel R (l ++ [a]) (m ++ [b]) := by
  induction h with
  | nil => exact .cons hab .nil
  | cons h _ ih => exact .cons h ih

/-- The step conditions of a simulation: whenever the first run returns (in a state satisfying the guard `G`), so does the
second, in a related state and with a related value. -/
structure Sim (env1 env2 : Env) (R : St → St → Prop) (G : St → Prop) (VR : Json → Json → Prop)
    (ER : List (Bytes × Json) → List (Bytes × Json) → Prop) : Prop where
  tok : ∀ s1 s2 t1 s1', R s1 s2 → consumeToken env1 s1 = .ret t1 s1' → G s1' →
    ∃ t2 s2', consumeToken env2 s2 = .ret t2 s2' ∧ R s1' s2' ∧ TokRel VR t1 t2
  tokG : ∀ s t s', consumeToken env1 s = .ret t s' → G s' → G s
  warnG : ∀ s k, G (warnDup s k) → G s
  nil : ER [] []
  obj : ∀ a b, ER a b → VR (.obj a) (.obj b)
  arr : ∀ a b, ListRel VR a b → VR (.arr a) (.arr b)
  contains : ∀ a b k, ER a b → Json.contains a k = Json.contains b k
  push : ∀ a b k v w, ER a b → Json.contains a k = false → VR v w → ER (addEntry env1 a k v) (addEntry env2 b k w)
  erase : ∀ a b k, ER a b → Json.contains a k = true → env1.strictOr = false →
    env2.strictOr = false ∧ ER (Json.erase a k) (Json.erase b k) ∧ Json.contains (Json.erase a k) k = false
  warn : ∀ s1 s2 k, R s1 s2 → env1.strictOr = false → R (warnDup s1 k) (warnDup s2 k)

/-- Related optional values. -/
inductive OptRel {α : Type} (R : α → α → Prop) : Option α → Option α → Prop where
  | none : OptRel R none none
  | some {a b} : R a b → OptRel R (some a) (some b)

variable {env1 env2 : Env} {R : St → St → Prop} {G : St → Prop} {VR : Json → Json → Prop}
  {ER : List (Bytes × Json) → List (Bytes × Json) → Prop}

/-- Step conditions for an invariant of states only. -/
theorem readerInv_state (env : Env) (I : St → Prop) (F : Out Empty → Prop)
    (tok : ∀ s, I s → (consumeToken env s).Post (fun _ s' => I s') F)
    (thr : ∀ s k, I s → (k = .notAKey ∨ k = .notJson ∨ k = .unexpected 58 ∨ k = .unexpected 93 ∨ (∃ key, k = .doubleKey key ∧ env.strictOr = true)) →
      F (.throw ⟨k, s.hist⟩))
    (nullChild : F (.ub .nullChild)) (fuel : F .fuel)
    (warn : ∀ s k, I s → env.strictOr = false → I { s with warns := s.warns ++ [⟨.doubleKey k, s.hist⟩] }) :
    ReaderInv env I (fun _ => True) (fun es => (keys es).Nodup) F where
  tok := fun s hs => Post.mono (tok s hs) (fun _ _ h => ⟨h, fun _ _ => trivial⟩) (fun _ h => h)
  thr := thr
  nullChild := fun _ => nullChild
  fuel := fuel
  nil := List.nodup_nil
  obj := fun _ _ => trivial
  arr := fun _ _ => trivial
  push := by
    intro es k v hn hc _
    rw [contains_false_iff] at hc
    split
    · exact nodup_of_perm_push (sortedPush_perm es k v) hn hc
    · exact nodup_of_perm_push (push_perm es k v) hn hc
  erase := fun es k hn _ _ => ⟨erase_nodup es k hn, erase_not_contains es k hn⟩
  warn := warn

theorem sim_back (S : Sim env1 env2 R G VR ER) :
    ReaderInv env1 (fun s => ¬ G s) (fun _ => True) (fun es => (keys es).Nodup) (fun _ => True) := by
  refine readerInv_state _ _ _ ?_ (fun _ _ _ _ => trivial) trivial trivial (fun s k hs _ hg => hs (S.warnG s k hg))
  intro s hs
  cases h : consumeToken env1 s <;> simp [Out.Post]
  exact fun hg => hs (S.tokG _ _ _ h hg)

theorem reader_sim (S : Sim env1 env2 R G VR ER) (hN : ∀ a b, ER a b → (keys a).Nodup) (fuel1 : Nat) :
    ∀ fuel2, fuel1 ≤ fuel2 →
    (∀ s1 s2 v1 s1', R s1 s2 → readNext env1 fuel1 s1 = .ret v1 s1' → G s1' →
      ∃ v2 s2', readNext env2 fuel2 s2 = .ret v2 s2' ∧ R s1' s2' ∧ OptRel VR v1 v2) ∧
    (∀ r1 r2 s1 s2 v1 s1', R s1 s2 → OptRel ER r1 r2 → objectLoop env1 fuel1 r1 s1 = .ret v1 s1' → G s1' →
      ∃ v2 s2', objectLoop env2 fuel2 r2 s2 = .ret v2 s2' ∧ R s1' s2' ∧ VR v1 v2) ∧
    (∀ s1 s2 v1 s1', R s1 s2 → readArray env1 fuel1 s1 = .ret v1 s1' → G s1' →
      ∃ v2 s2', readArray env2 fuel2 s2 = .ret v2 s2' ∧ R s1' s2' ∧ VR v1 v2) ∧
    (∀ acc1 acc2 t1 t2 s1 s2 v1 s1', R s1 s2 → ListRel VR acc1 acc2 → TokRel VR t1 t2 →
      arrayLoop env1 fuel1 acc1 t1 s1 = .ret v1 s1' → G s1' →
      ∃ v2 s2', arrayLoop env2 fuel2 acc2 t2 s2 = .ret v2 s2' ∧ R s1' s2' ∧ VR v1 v2) := by
  have back := reader_inv (sim_back S)
  have gN : ∀ fuel s v s', readNext env1 fuel s = .ret v s' → G s' → G s := fun fuel s v s' h hg =>
    Classical.byContradiction fun hn => (Post.of_ret ((back fuel).1 s hn) h).1 hg
  have gO : ∀ fuel r s v s', (∀ es, r = some es → (keys es).Nodup) → objectLoop env1 fuel r s = .ret v s' → G s' → G s :=
    fun fuel r s v s' hr h hg =>
    Classical.byContradiction fun hn => (Post.of_ret ((back fuel).2.1 r s hn hr) h).1 hg
  have gA : ∀ fuel s v s', readArray env1 fuel s = .ret v s' → G s' → G s := fun fuel s v s' h hg =>
    Classical.byContradiction fun hn => (Post.of_ret ((back fuel).2.2.1 s hn) h).1 hg
  have gL : ∀ fuel acc t s v s', arrayLoop env1 fuel acc t s = .ret v s' → G s' → G s := fun fuel acc t s v s' h hg =>
    Classical.byContradiction fun hn => (Post.of_ret ((back fuel).2.2.2 acc t s hn (fun _ _ => trivial) (fun _ _ => trivial)) h).1 hg
  have hNO : ∀ r1 r2, OptRel ER r1 r2 → ∀ es, r1 = some es → (keys es).Nodup := by
    rintro r1 r2 h es rfl
    cases h with
    | some h => exact hN _ _ h
  induction fuel1 with
  | zero =>
    intro fuel2 _
    refine ⟨?_, ?_, ?_, ?_⟩
    · intro s1 s2 v1 s1' _ h; simp [readNext] at h
    · intro r1 r2 s1 s2 v1 s1' _ _ h; simp [objectLoop] at h
    · intro s1 s2 v1 s1' _ h; simp [readArray] at h
    · intro acc1 acc2 t1 t2 s1 s2 v1 s1' _ _ _ h; simp [arrayLoop] at h
  | succ fuel1 ih =>
    intro fuel2 hle
    obtain ⟨fuel2, rfl⟩ : ∃ n, fuel2 = n + 1 := ⟨fuel2 - 1, by omega⟩
    obtain ⟨ihN, ihO, ihA, ihL⟩ := ih fuel2 (by omega)
    refine ⟨?_, ?_, ?_, ?_⟩
    · intro s1 s2 v1 s1' hR h hG
      rw [readNext] at h
      obtain ⟨t1, sa, ht, h⟩ := bind_eq_ret.mp h
      have hGa : G sa := by
        cases t1 with
        | val v => simp at h; rw [h.2]; exact hG
        | punct c =>
          dsimp only at h
          split at h
          · obtain ⟨w, sb, h1, h2⟩ := bind_eq_ret.mp h
            simp at h2; obtain ⟨_, rfl⟩ := h2
            exact gO _ _ _ _ _ (by simp) h1 hG
          · split at h
            · obtain ⟨w, sb, h1, h2⟩ := bind_eq_ret.mp h
              simp at h2; obtain ⟨_, rfl⟩ := h2
              exact gA _ _ _ _ h1 hG
            · simp at h; rw [h.2]; exact hG
        | nothing => simp at h; rw [h.2]; exact hG
      obtain ⟨t2, sb, ht2, hRa, hT⟩ := S.tok _ _ _ _ hR ht hGa
      rw [readNext, ht2]
      simp only [Out.bind]
      cases hT with
      | nothing =>
        simp at h ⊢; obtain ⟨rfl, rfl⟩ := h
        exact ⟨_, _, ⟨rfl, rfl⟩, hRa, .none⟩
      | str k hk =>
        simp at h ⊢; obtain ⟨rfl, rfl⟩ := h
        exact ⟨_, _, ⟨rfl, rfl⟩, hRa, .some hk⟩
      | val v w hv _ _ =>
        simp at h ⊢; obtain ⟨rfl, rfl⟩ := h
        exact ⟨_, _, ⟨rfl, rfl⟩, hRa, .some hv⟩
      | punct c =>
        dsimp only at h ⊢
        split at h
        · rename_i hc
          obtain ⟨w, sc, h1, h2⟩ := bind_eq_ret.mp h
          simp at h2; obtain ⟨rfl, rfl⟩ := h2
          obtain ⟨v2, s2', h3, h4, h5⟩ := ihO none none _ _ _ _ hRa .none h1 hG
          rw [if_pos hc, h3]
          exact ⟨_, _, rfl, h4, .some h5⟩
        · rename_i hc
          rw [if_neg hc]
          split at h
          · rename_i hc
            obtain ⟨w, sc, h1, h2⟩ := bind_eq_ret.mp h
            simp at h2; obtain ⟨rfl, rfl⟩ := h2
            obtain ⟨v2, s2', h3, h4, h5⟩ := ihA _ _ _ _ hRa h1 hG
            rw [if_pos hc, h3]
            exact ⟨_, _, rfl, h4, .some h5⟩
          · rename_i hc
            rw [if_neg hc]
            simp at h; obtain ⟨rfl, rfl⟩ := h
            exact ⟨_, _, rfl, hRa, .none⟩
    · intro r1 r2 s1 s2 v1 s1' hR hr h hG
      rw [objectLoop_succ] at h
      obtain ⟨t1, sa, ht, h⟩ := bind_eq_ret.mp h
      rw [objectLoop_succ]
      have hE : ER (r1.getD []) (r2.getD []) := by
        cases hr with
        | none => exact S.nil
        | some h' => exact h'
      have hnone : r1.isNone = r2.isNone := by cases hr <;> rfl
      by_cases hv : ∃ key, t1 = .val (.str key)
      case neg =>
        -- only `}` can return here
        cases t1 with
        | nothing => simp [objKey] at h
        | val v => cases v <;> simp [objKey] at h hv
        | punct c =>
          simp only [objKey] at h
          split at h
          · rename_i hc
            simp at h; obtain ⟨rfl, rfl⟩ := h
            obtain ⟨t2, sb, ht2, hRa, hT⟩ := S.tok _ _ _ _ hR ht hG
            cases hT
            rw [ht2]
            simp only [Out.bind, objKey]
            rw [if_pos (by rw [← hnone]; exact hc)]
            exact ⟨_, _, rfl, hRa, S.obj _ _ S.nil⟩
          · simp at h
      obtain ⟨key, rfl⟩ := hv
      simp only [objKey] at h
      obtain ⟨t2, sb, ht2, h⟩ := bind_eq_ret.mp h
      cases t2 with
      | val _ => simp [objColon] at h
      | nothing => simp [objColon] at h
      | punct c =>
        simp only [objColon] at h
        generalize r1.getD [] = e1 at *
        generalize he2 : r2.getD [] = e2 at *
        split at h
        · simp at h
        · rename_i hc
          split at h
          · simp at h
          · rename_i hdup
            obtain ⟨child, sc, hch, h⟩ := bind_eq_ret.mp h
            cases child with
            | none => simp [objChild] at h
            | some v =>
              simp only [objChild] at h
              obtain ⟨t3, sd, ht3, h⟩ := bind_eq_ret.mp h
              have hcon := S.contains _ _ key hE
              have hEe : ER (dropKey e1 key) (dropKey e2 key) ∧ Json.contains (dropKey e1 key) key = false ∧
                  (Json.contains e2 key && env2.strictOr) = false := by
                unfold dropKey
                by_cases hd : Json.contains e1 key = true
                · have hst : env1.strictOr = false := by simpa [hd] using hdup
                  obtain ⟨e1, e2, e3⟩ := S.erase _ _ key hE hd hst
                  rw [← hcon, if_pos hd, if_pos hd]
                  exact ⟨e2, e3, by simp [e1]⟩
                · simp only [Bool.not_eq_true] at hd
                  rw [← hcon, hd]
                  simp only [Bool.false_eq_true, if_false, Bool.false_and]
                  exact ⟨hE, hd, trivial⟩
              obtain ⟨hEe, hnc, hdup2⟩ := hEe
              have hes1N : ∀ es, (some (addEntry env1 (dropKey e1 key) key v)) = some es → (keys es).Nodup := by
                intro es he
                simp at he; subst he
                unfold addEntry
                rw [contains_false_iff] at hnc
                split
                · exact nodup_of_perm_push (sortedPush_perm _ _ _) (hN _ _ hEe) hnc
                · exact nodup_of_perm_push (push_perm _ _ _) (hN _ _ hEe) hnc
              have hGd : G sd := by
                cases t3 with
                | val _ => simp [objSep] at h; rw [h.2]; exact hG
                | nothing => exact gO _ _ _ _ _ hes1N h hG
                | punct c =>
                  simp only [objSep] at h
                  split at h
                  · simp at h; rw [h.2]; exact hG
                  · exact gO _ _ _ _ _ hes1N h hG
              have hGc : G sc := S.tokG _ _ _ ht3 hGd
              have hGb : G sb := by
                have := gN _ _ _ _ hch hGc
                split at this
                · exact S.warnG _ _ this
                · exact this
              have hGa : G sa := S.tokG _ _ _ ht2 hGb
              obtain ⟨u1, ta, hu1, hRa, hT1⟩ := S.tok _ _ _ _ hR ht hGa
              obtain ⟨u2, tb, hu2, hRb, hT2⟩ := S.tok _ _ _ _ hRa ht2 hGb
              have hu1' : u1 = .val (.str key) := by
                cases hT1 with
                | str => rfl
                | val _ _ _ h1 _ => exact absurd rfl (h1 key)
              have hu2' : u2 = .punct c := by cases hT2; rfl
              subst hu1' hu2'
              have hRw : R (if Json.contains e1 key then warnDup sb key else sb)
                  (if Json.contains e2 key then warnDup tb key else tb) := by
                rw [← hcon]
                split
                · rename_i hd
                  refine S.warn _ _ _ hRb ?_
                  simpa [hd] using hdup
                · exact hRb
              obtain ⟨v2, tc, hv2, hRc, hV⟩ := ihN _ _ _ _ hRw hch hGc
              obtain ⟨v2, rfl⟩ : ∃ x, v2 = some x := by cases hV; exact ⟨_, rfl⟩
              have hV : VR v v2 := by cases hV; assumption
              obtain ⟨u3, td, hu3, hRd, hT3⟩ := S.tok _ _ _ _ hRc ht3 hGd
              have hEp := S.push _ _ key _ _ hEe hnc hV
              rw [hu1]
              simp only [Out.bind, objKey]
              rw [hu2]
              simp only [Out.bind, objColon]
              rw [he2, if_neg hc, if_neg (by rw [hdup2]; exact Bool.false_ne_true), hv2]
              simp only [Out.bind, objChild]
              rw [hu3]
              simp only [Out.bind]
              cases hT3 with
              | nothing => exact ihO _ _ _ _ _ _ hRd (.some hEp) h hG
              | str k hk =>
                simp [objSep] at h; obtain ⟨rfl, rfl⟩ := h
                exact ⟨_, _, rfl, hRd, S.obj _ _ hEp⟩
              | val a b hk _ _ =>
                simp [objSep] at h; obtain ⟨rfl, rfl⟩ := h
                exact ⟨_, _, rfl, hRd, S.obj _ _ hEp⟩
              | punct c =>
                simp only [objSep] at h ⊢
                split at h
                · rename_i hc
                  rw [if_pos hc]
                  simp at h; obtain ⟨rfl, rfl⟩ := h
                  exact ⟨_, _, rfl, hRd, S.obj _ _ hEp⟩
                · rename_i hc
                  rw [if_neg hc]
                  exact ihO _ _ _ _ _ _ hRd (.some hEp) h hG
    · intro s1 s2 v1 s1' hR h hG
      rw [readArray_succ] at h
      obtain ⟨t1, sa, ht, h⟩ := bind_eq_ret.mp h
      have hGa : G sa := by
        split at h
        · split at h
          · simp at h; rw [h.2]; exact hG
          · exact gL _ _ _ _ _ _ h hG
        · exact gL _ _ _ _ _ _ h hG
      obtain ⟨t2, sb, ht2, hRa, hT⟩ := S.tok _ _ _ _ hR ht hGa
      rw [readArray_succ, ht2]
      simp only [Out.bind]
      cases hT with
      | nothing => exact ihL _ _ _ _ _ _ _ _ hRa .nil .nothing h hG
      | str k hk => exact ihL _ _ _ _ _ _ _ _ hRa .nil (.str k hk) h hG
      | val v w hv h1 h2 => exact ihL _ _ _ _ _ _ _ _ hRa .nil (.val v w hv h1 h2) h hG
      | punct c =>
        dsimp only at h ⊢
        split at h
        · rename_i hc
          rw [if_pos hc]
          simp at h; obtain ⟨rfl, rfl⟩ := h
          exact ⟨_, _, rfl, hRa, S.arr _ _ .nil⟩
        · rename_i hc
          rw [if_neg hc]
          exact ihL _ _ _ _ _ _ _ _ hRa .nil (.punct c) h hG
    · intro acc1 acc2 t1 t2 s1 s2 v1 s1' hR hacc hT h hG
      rw [arrayLoop_succ] at h
      obtain ⟨ch, sa, hch, h⟩ := bind_eq_ret.mp h
      obtain ⟨t3, sb, ht3, h⟩ := bind_eq_ret.mp h
      have hGb : G sb := by
        cases t3 with
        | nothing => simp [arrSep] at h
        | val v => simp [arrSep] at h
        | punct c =>
          simp only [arrSep] at h
          split at h
          · simp at h; rw [h.2]; exact hG
          · split at h
            · obtain ⟨t4, sc, ht4, h⟩ := bind_eq_ret.mp h
              exact S.tokG _ _ _ ht4 (gL _ _ _ _ _ _ h hG)
            · simp at h
      have hGa : G sa := S.tokG _ _ _ ht3 hGb
      have hitem : ∃ ch2 ta, arrItem env2 fuel2 t2 s2 = .ret ch2 ta ∧ R sa ta ∧ VR ch ch2 := by
        cases hT with
        | nothing => simp [arrItem] at hch
        | str k hk => simp [arrItem] at hch ⊢; obtain ⟨rfl, rfl⟩ := hch; exact ⟨_, _, ⟨rfl, rfl⟩, hR, hk⟩
        | val v w hv h1 h2 => simp [arrItem] at hch ⊢; obtain ⟨rfl, rfl⟩ := hch; exact ⟨_, _, ⟨rfl, rfl⟩, hR, hv⟩
        | punct c =>
          simp only [arrItem] at hch ⊢
          split at hch
          · rename_i hc; rw [if_pos hc]; exact ihA _ _ _ _ hR hch hGa
          · rename_i hc; rw [if_neg hc]
            split at hch
            · rename_i hc; rw [if_pos hc]; exact ihO _ _ _ _ _ _ hR .none hch hGa
            · simp at hch
      obtain ⟨ch2, ta, hch2, hRa, hV⟩ := hitem
      obtain ⟨u3, tb, hu3, hRb, hT3⟩ := S.tok _ _ _ _ hRa ht3 hGb
      have hacc' := hacc.snoc hV
      rw [arrayLoop_succ, hch2]
      simp only [Out.bind]
      rw [hu3]
      simp only [Out.bind]
      cases hT3 with
      | nothing => simp [arrSep] at h
      | str k hk => simp [arrSep] at h
      | val v w hv h1 h2 => simp [arrSep] at h
      | punct c =>
        simp only [arrSep] at h ⊢
        split at h
        · rename_i hc; rw [if_pos hc]
          simp at h; obtain ⟨rfl, rfl⟩ := h
          exact ⟨_, _, rfl, hRb, S.arr _ _ hacc'⟩
        · rename_i hc; rw [if_neg hc]
          split at h
          · rename_i hc; rw [if_pos hc]
            obtain ⟨t4, sc, ht4, h⟩ := bind_eq_ret.mp h
            have hGc : G sc := gL _ _ _ _ _ _ h hG
            obtain ⟨u4, tc, hu4, hRc, hT4⟩ := S.tok _ _ _ _ hRb ht4 hGc
            rw [hu4]
            simp only [Out.bind]
            exact ihL _ _ _ _ _ _ _ _ hRc hacc' hT4 h hG
          · simp at h

end Verif.Lemmas
