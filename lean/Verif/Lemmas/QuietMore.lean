import Verif.Lemmas.Quiet
/-!
# Lemmas: the marked reader and the reader
-/
namespace Verif.Lemmas.Quiet
open Verif.Model Verif.Spec

/-- Without the mark it is the reader. -/
theorem loud (env : Env) (f : Nat) :
    (∀ s, readNext false env f s = Model.readNext env f s) ∧
    (∀ r s, objectLoop false env f r s = Model.objectLoop env f r s) ∧
    (∀ s, readArray false env f s = Model.readArray env f s) ∧
    (∀ acc t s, arrayLoop false env f acc t s = Model.arrayLoop env f acc t s) := by
  induction f with
  | zero => refine ⟨?_, ?_, ?_, ?_⟩ <;> intros <;> simp [readNext, objectLoop, readArray, arrayLoop, Model.readNext, Model.objectLoop, Model.readArray, Model.arrayLoop]
  | succ f ih =>
    obtain ⟨ihN, ihO, ihA, ihL⟩ := ih
    have hsep : ∀ es tok s, objSep false env f es tok s = Lemmas.objSep env f es tok s := by
      intro es tok s; cases tok <;> simp [objSep, Lemmas.objSep, ihO]
    have hchild : ∀ es k c s, objChild false env f es k c s = Lemmas.objChild env f es k c s := by
      intro es k c s; cases c <;> simp [objChild, Lemmas.objChild]
      congr 1; funext t s; exact hsep _ _ _
    have hcolon : ∀ es k t s, objColon false env f es k t s = Lemmas.objColon env f es k t s := by
      intro es k t s
      have e : objChild false env f (dropKey es k) k = Lemmas.objChild env f (dropKey es k) k := by funext c s; exact hchild _ _ _ _
      cases t <;> simp [objColon, Lemmas.objColon, ihN, e]
    have hkey : ∀ r t s, objKey false env f r t s = Lemmas.objKey env f r t s := by
      intro r t s
      cases t with
      | val v =>
        cases v <;> simp [objKey, Lemmas.objKey]
        congr 1; funext t s; exact hcolon _ _ _ _
      | _ => simp [objKey, Lemmas.objKey]
    have hitem : ∀ t s, arrItem false env f t s = Lemmas.arrItem env f t s := by
      intro t s; cases t <;> simp [arrItem, Lemmas.arrItem, ihO, ihA]
    have hasep : ∀ acc t s, arrSep false env f acc t s = Lemmas.arrSep env f acc t s := by
      intro acc t s; cases t <;> simp [arrSep, Lemmas.arrSep, ihL]
    refine ⟨?_, ?_, ?_, ?_⟩
    · intro s
      rw [readNext_succ, Lemmas.readNext_succ]
      simp only [ihO, ihA]
      rfl
    · intro r s
      rw [objectLoop_succ, Lemmas.objectLoop_succ]
      congr 1; funext t s; exact hkey _ _ _
    · intro s
      rw [readArray_succ, Lemmas.readArray_succ]
      simp only [ihL]
      rfl
    · intro acc t s
      rw [arrayLoop_succ, Lemmas.arrayLoop_succ, hitem]
      congr 1; funext v s; congr 1; funext t s; exact hasep _ _ _

/-- With some fuel it is the reader, or no fuel is enough. -/
def Marked {α : Type} (f : Nat) (t : Nat → Out α) (l : Out α) : Prop := t f = l ∨ ∀ f', f ≤ f' → t f' = .fuel

theorem Marked.bind {α β : Type} {f : Nat} {t : Nat → Out α} {l : Out α} {t' : Nat → α → St → Out β} {l' : α → St → Out β}
    (hm : ∀ f', f ≤ f' → Refines (t f) (t f')) (h : Marked f t l) (h' : ∀ a s, Marked f (fun f => t' f a s) (l' a s)) :
    Marked f (fun f => (t f).bind (t' f)) (l.bind l') := by
  rcases h with h | h
  · subst h
    cases e : t f with
    | ret a s =>
      rcases h' a s with h' | h'
      · left; simp only [e, Out.bind]; exact h'
      · right
        intro f' hf
        have := hm f' hf (by rw [e]; simp)
        simp only [this, e, Out.bind]
        exact h' f' hf
    | throw x => left; simp [e, Out.bind]
    | uncaught x => left; simp [e, Out.bind]
    | ub x => left; simp [e, Out.bind]
    | fuel => left; simp [e, Out.bind]
  · right
    intro f' hf
    simp [h f' hf, Out.bind]

theorem Marked.same {α : Type} {f : Nat} {o : Out α} : Marked f (fun _ => o) o := Or.inl rfl

theorem Marked.ite {α : Type} {f : Nat} {p : Prop} [Decidable p] {t1 t2 : Nat → Out α} {l1 l2 : Out α} (h1 : Marked f t1 l1) (h2 : Marked f t2 l2) :
    Marked f (fun f => if p then t1 f else t2 f) (if p then l1 else l2) := by
  by_cases h : p
  · simpa only [h, if_true] using h1
  · simpa only [h, if_false] using h2

theorem Marked.succ {α : Type} {f : Nat} {t : Nat → Out α} {l : Out α} (h : Marked f (fun f => t (f + 1)) l) : Marked (f + 1) t l := by
  rcases h with h | h
  · exact Or.inl h
  · refine Or.inr fun f' hf => ?_
    obtain ⟨n, rfl⟩ : ∃ n, f' = n + 1 := ⟨f' - 1, by omega⟩
    exact h n (by omega)

theorem marked (env : Env) (f : Nat) :
    (∀ s, Marked f (fun f => readNext true env f s) (readNext false env f s)) ∧
    (∀ r s, Marked f (fun f => objectLoop true env f r s) (objectLoop false env f r s)) ∧
    (∀ s, Marked f (fun f => readArray true env f s) (readArray false env f s)) ∧
    (∀ acc t s, Marked f (fun f => arrayLoop true env f acc t s) (arrayLoop false env f acc t s)) := by
  induction f with
  | zero => refine ⟨?_, ?_, ?_, ?_⟩ <;> intros <;> left <;> simp [readNext, objectLoop, readArray, arrayLoop]
  | succ f ih =>
    obtain ⟨ihN, ihO, ihA, ihL⟩ := ih
    have mono := reader_mono true env f
    have hsep : ∀ es tok s, Marked f (fun f => objSep true env f es tok s) (objSep false env f es tok s) := by
      intro es tok s
      cases tok with
      | val v => right; intro f' _; simp [objSep]
      | punct c => exact .ite .same (ihO _ _)
      | nothing => exact ihO _ _
    have hchild : ∀ es k c s, Marked f (fun f => objChild true env f es k c s) (objChild false env f es k c s) := by
      intro es k c s
      cases c with
      | none => exact .same
      | some v => exact .bind (fun _ _ => .rfl) .same (fun _ _ => hsep _ _ _)
    have hcolon : ∀ es k t s, Marked f (fun f => objColon true env f es k t s) (objColon false env f es k t s) := by
      intro es k t s
      cases t with
      | punct c => exact .ite .same (.ite .same (.bind (fun f' h => (mono f' h).1 _) (ihN _) (fun _ _ => hchild _ _ _ _)))
      | _ => exact .same
    refine ⟨?_, ?_, ?_, ?_⟩
    · intro s
      refine .succ ?_
      simp only [readNext_succ]
      refine .bind (fun _ _ => .rfl) .same (fun t s => ?_)
      cases t with
      | val v => exact .same
      | punct c => exact .ite (.bind (fun f' h => (mono f' h).2.1 _ _) (ihO _ _) (fun _ _ => .same)) (.ite (.bind (fun f' h => (mono f' h).2.2.1 _) (ihA _) (fun _ _ => .same)) .same)
      | nothing => exact .same
    · intro r s
      refine .succ ?_
      simp only [objectLoop_succ]
      refine .bind (fun _ _ => .rfl) .same (fun t s => ?_)
      cases t with
      | val v =>
        cases v with
        | str k => exact .bind (fun _ _ => .rfl) .same (fun _ _ => hcolon _ _ _ _)
        | _ => exact .same
      | punct c => exact .same
      | nothing => exact .same
    · intro s
      refine .succ ?_
      simp only [readArray_succ]
      refine .bind (fun _ _ => .rfl) .same (fun t s => ?_)
      cases t with
      | val v => exact ihL _ _ _
      | punct c => exact .ite .same (ihL _ _ _)
      | nothing => exact ihL _ _ _
    · intro acc t s
      refine .succ ?_
      simp only [arrayLoop_succ]
      refine .bind (fun f' h => arrItem_mono true env h t s) ?_ (fun v s => .bind (fun _ _ => .rfl) .same (fun t s => ?_))
      · cases t with
        | val v => exact .same
        | punct c => exact .ite (ihA _) (.ite (ihO _ _) .same)
        | nothing => exact .same
      · cases t with
        | punct c => exact .ite .same (.ite (.bind (fun _ _ => .rfl) .same (fun _ _ => ihL _ _ _)) .same)
        | _ => exact .same

/-- A value that is read quietly with some fuel is read so with the fuel of `read`. -/
theorem quiet_of_item {env : Env} {s : St} (hs : Exhausted s) {f : Nat} {v : Json} {s' : St} (h : item true env f s = .ret v s') :
    readNext true env (2 * s.rest.length + 4) s = .ret (some v) s' := by
  generalize hF : 2 * s.rest.length + 4 = F
  have h1 := readNext_of_item true env h (max (f + 1) F) (by omega)
  have h2 : Refines (readNext true env F s) (readNext true env (max (f + 1) F) s) := (reader_mono true env F _ (by omega)).1 s
  rcases (marked env F).1 s with h3 | h3
  · dsimp only at h3
    rw [← h2 (by
      rw [h3, (loud env F).1]
      have := read_post env s hs
      unfold Model.read at this
      rw [hF] at this
      intro e
      rw [e] at this
      simp [Out.Post] at this), h1]
  · have := h3 (max (f + 1) F) (by omega)
    dsimp only at this
    rw [h1] at this
    exact absurd this (by simp)

end Verif.Lemmas.Quiet
