import Verif.Lemmas.ReaderInv
import Verif.Lemmas.ReaderEq
/-!
# Lemmas: more fuel does not change an outcome
-/
namespace Verif.Lemmas
open Verif.Model

/-- `o'` is the outcome `o`, unless `o` ran out of fuel. -/
def Refines {α : Type} (o o' : Out α) : Prop := o ≠ .fuel → o' = o

theorem Refines.rfl {α : Type} {o : Out α} : Refines o o := fun _ => Eq.refl _

theorem Refines.bind {α β : Type} {o o' : Out α} {f f' : α → St → Out β} (h : Refines o o')
    (hf : ∀ a s, Refines (f a s) (f' a s)) : Refines (o.bind f) (o'.bind f') := by
  intro hn
  have ho : o ≠ .fuel := by rintro rfl; exact hn (Eq.refl _)
  have := h ho; subst this
  cases o' with
  | ret a s => exact hf a s hn
  | _ => first | rfl | exact absurd (Eq.refl _) ho

theorem Refines.ite {α : Type} {p : Prop} [Decidable p] {a b a' b' : Out α} (h1 : Refines a a') (h2 : Refines b b') :
    Refines (if p then a else b) (if p then a' else b') := by split <;> assumption

theorem reader_mono (env : Env) (f1 : Nat) : ∀ f2, f1 ≤ f2 →
    (∀ s, Refines (readNext env f1 s) (readNext env f2 s)) ∧
    (∀ r s, Refines (objectLoop env f1 r s) (objectLoop env f2 r s)) ∧
    (∀ s, Refines (readArray env f1 s) (readArray env f2 s)) ∧
    (∀ acc t s, Refines (arrayLoop env f1 acc t s) (arrayLoop env f2 acc t s)) := by
  induction f1 with
  | zero =>
    intro f2 _
    exact ⟨fun _ h => absurd rfl h, fun _ _ h => absurd rfl h, fun _ h => absurd rfl h, fun _ _ _ h => absurd rfl h⟩
  | succ f1 ih =>
    intro f2 hle
    obtain ⟨f2, rfl⟩ : ∃ n, f2 = n + 1 := ⟨f2 - 1, by omega⟩
    obtain ⟨ihN, ihO, ihA, ihL⟩ := ih f2 (by omega)
    have hsep : ∀ es tok s, Refines (objSep env f1 es tok s) (objSep env f2 es tok s) := by
      intro es tok s
      cases tok <;> simp only [objSep]
      · exact .rfl
      · exact .ite .rfl (ihO _ _)
      · exact ihO _ _
    have hchild : ∀ es k c s, Refines (objChild env f1 es k c s) (objChild env f2 es k c s) := by
      intro es k c s
      cases c <;> simp only [objChild]
      · exact .rfl
      · exact .bind .rfl (fun _ _ => hsep _ _ _)
    have hcolon : ∀ es k t s, Refines (objColon env f1 es k t s) (objColon env f2 es k t s) := by
      intro es k t s
      cases t <;> simp only [objColon]
      · exact .rfl
      · exact .ite .rfl (.ite .rfl (.bind (ihN _) (fun _ _ => hchild _ _ _ _)))
      · exact .rfl
    refine ⟨?_, ?_, ?_, ?_⟩
    · intro s
      rw [readNext_succ, readNext_succ]
      refine .bind .rfl (fun t s => ?_)
      cases t
      · exact .rfl
      · exact .ite (.bind (ihO _ _) fun _ _ => .rfl) (.ite (.bind (ihA _) fun _ _ => .rfl) .rfl)
      · exact .rfl
    · intro r s
      rw [objectLoop_succ, objectLoop_succ]
      refine .bind .rfl (fun t s => ?_)
      cases t with
      | val v => 
        cases v <;> simp only [objKey] <;> first | exact .rfl | exact .bind .rfl (fun _ _ => hcolon _ _ _ _)
      | punct c => exact .rfl
      | nothing => exact .rfl
    · intro s
      rw [readArray_succ, readArray_succ]
      refine .bind .rfl (fun t s => ?_)
      cases t
      · exact ihL _ _ _
      · exact .ite .rfl (ihL _ _ _)
      · exact ihL _ _ _
    · intro acc t s
      rw [arrayLoop_succ, arrayLoop_succ]
      refine .bind ?_ (fun v s => .bind .rfl (fun t s => ?_))
      · cases t <;> simp only [arrItem]
        · exact .rfl
        · exact .ite (ihA _) (.ite (ihO _ _) .rfl)
        · exact .rfl
      · cases t <;> simp only [arrSep]
        · exact .rfl
        · exact .ite .rfl (.ite (.bind .rfl fun _ _ => ihL _ _ _) .rfl)
        · exact .rfl

/-- `read` is the outcome with any fuel that suffices. -/
theorem read_eq (env : Env) (s : St) (hs : Exhausted s) (f : Nat) (h : readNext env f s ≠ .fuel) :
    read env s = readNext env f s := by
  have hp := read_post env s hs
  have hne : read env s ≠ .fuel := by
    intro he; rw [he] at hp; simp [Out.Post] at hp
  unfold Model.read at *
  rcases Nat.le_total (2 * s.rest.length + 4) f with hl | hl
  · exact (((reader_mono env _ _ hl).1 s) hne).symm
  · exact ((reader_mono env _ _ hl).1 s) h

end Verif.Lemmas
