import Verif.Spec.EditDistance
import Verif.Model.Levenshtein
/-! # The matrix of `levenshtein` holds edit distances -/
namespace Verif.Lemmas
open Verif.Model Verif.Spec

/-- Recursive edit distance. -/
def D : Bytes → Bytes → Nat
  | [], b => b.length
  | x :: a, [] => (x :: a).length
  | x :: a, y :: b => min (min (D a (y :: b) + 1) (D (x :: a) b + 1)) (D a b + if x = y then 0 else 1)

theorem D_nil (a : Bytes) : D a [] = a.length := by cases a <;> simp [D]

/-- An alignment of two strings and its cost. -/
inductive Al : Bytes → Bytes → Nat → Prop where
  | nil : Al [] [] 0
  | ins {a b : Bytes} {n : Nat} (y : Byte) : Al a b n → Al a (y :: b) (n + 1)
  | del {a b : Bytes} {n : Nat} (x : Byte) : Al a b n → Al (x :: a) b (n + 1)
  | sub {a b : Bytes} {n : Nat} (x y : Byte) : Al a b n → Al (x :: a) (y :: b) (n + if x = y then 0 else 1)

theorem Al.all_ins : ∀ b : Bytes, Al [] b b.length
  | [] => .nil
  | y :: b => .ins y (Al.all_ins b)

theorem Al.all_del : ∀ a : Bytes, Al a [] a.length
  | [] => .nil
  | y :: b => .del y (Al.all_del b)

theorem Al.of_D : ∀ a b : Bytes, Al a b (D a b)
  | [], b => by simpa [D] using Al.all_ins b
  | x :: a, [] => by simpa [D] using Al.all_del (x :: a)
  | x :: a, y :: b => by
    have h1 := Al.of_D a (y :: b)
    have h2 := Al.of_D (x :: a) b
    have h3 := Al.of_D a b
    have hc : D (x :: a) (y :: b) = D a (y :: b) + 1 ∨ D (x :: a) (y :: b) = D (x :: a) b + 1 ∨ D (x :: a) (y :: b) = D a b + if x = y then 0 else 1 := by
      rw [D]
      generalize (D a b + if x = y then 0 else 1) = t
      omega
    rcases hc with h | h | h
    · rw [h]; exact .del x h1
    · rw [h]; exact .ins y h2
    · rw [h]; exact .sub x y h3

theorem D_le_of_Al {a b : Bytes} {n : Nat} (h : Al a b n) : D a b ≤ n := by
  induction h with
  | nil => simp [D]
  | @ins a b n y h ih =>
    cases a with
    | nil => simp [D] at *; omega
    | cons x a => rw [D]; generalize (D a b + if x = y then 0 else 1) = t; omega
  | @del a b n x h ih =>
    cases b with
    | nil => simp [D, D_nil] at *; omega
    | cons y b => rw [D]; generalize (D a b + if x = y then 0 else 1) = t; omega
  | @sub a b n x y h ih => rw [D]; generalize (if x = y then 0 else 1) = t; omega

theorem Al.refl : ∀ a : Bytes, Al a a 0
  | [] => .nil
  | x :: a => by simpa using Al.sub x x (Al.refl a)

theorem Al.append {a b a' b' : Bytes} {m n : Nat} (h : Al a b m) (h' : Al a' b' n) : Al (a ++ a') (b ++ b') (m + n) := by
  induction h with
  | nil => simpa using h'
  | ins y h ih => rw [Nat.add_right_comm]; exact .ins y ih
  | del y h ih => rw [Nat.add_right_comm]; exact .del y ih
  | sub x y h ih => rw [Nat.add_right_comm]; exact .sub x y ih

theorem Al.reverse {a b : Bytes} {n : Nat} (h : Al a b n) : Al a.reverse b.reverse n := by
  induction h with
  | nil => exact .nil
  | ins y h ih => simpa using Al.append ih (Al.ins y .nil)
  | del y h ih => simpa using Al.append ih (Al.del y .nil)
  | sub x y h ih => simpa using Al.append ih (Al.sub x y .nil)

theorem Al.symm {a b : Bytes} {n : Nat} (h : Al a b n) : Al b a n := by
  induction h with
  | nil => exact .nil
  | ins y h ih => exact .del y ih
  | del y h ih => exact .ins y ih
  | @sub a b n x y h ih =>
    have : (if x = y then 0 else 1 : Nat) = if y = x then 0 else 1 := by simp only [eq_comm]
    rw [this]
    exact .sub y x ih

theorem Al.trans' : ∀ (N : Nat) {a b c : Bytes} {m n : Nat}, a.length + b.length + c.length ≤ N → Al a b m → Al b c n → ∃ k, k ≤ m + n ∧ Al a c k := by
  intro N
  induction N with
  | zero =>
    intro a b c m n hN h1 h2
    have ha : a = [] := List.length_eq_zero_iff.mp (by omega)
    have hc : c = [] := List.length_eq_zero_iff.mp (by omega)
    subst ha; subst hc
    exact ⟨0, by omega, .nil⟩
  | succ N ih =>
    intro a b c m n hN h1 h2
    cases h1 with
    | nil => exact ⟨n, by omega, h2⟩
    | @del a' _ m x h1 =>
      obtain ⟨k, hk, h⟩ := ih (by simp at hN; omega) h1 h2
      exact ⟨k + 1, by omega, .del x h⟩
    | @ins _ b' m y h1 =>
      cases h2 with
      | @ins _ c' n z h2 =>
        obtain ⟨k, hk, h⟩ := ih (by simp at hN ⊢; omega) (.ins y h1) h2
        exact ⟨k + 1, by omega, .ins z h⟩
      | @del _ _ n _ h2 =>
        obtain ⟨k, hk, h⟩ := ih (by simp at hN ⊢; omega) h1 h2
        exact ⟨k, by omega, h⟩
      | @sub _ c' n _ z h2 =>
        obtain ⟨k, hk, h⟩ := ih (by simp at hN ⊢; omega) h1 h2
        exact ⟨k + 1, by omega, .ins z h⟩
    | @sub a' b' m x y h1 =>
      cases h2 with
      | @ins _ c' n z h2 =>
        obtain ⟨k, hk, h⟩ := ih (by simp at hN ⊢; omega) (.sub x y h1) h2
        exact ⟨k + 1, by omega, .ins z h⟩
      | @del _ _ n _ h2 =>
        obtain ⟨k, hk, h⟩ := ih (by simp at hN ⊢; omega) h1 h2
        exact ⟨k + 1, by omega, .del x h⟩
      | @sub _ c' n _ z h2 =>
        obtain ⟨k, hk, h⟩ := ih (by simp at hN ⊢; omega) h1 h2
        refine ⟨k + if x = z then 0 else 1, ?_, .sub x z h⟩
        by_cases h1 : x = y <;> by_cases h2 : y = z <;> by_cases h3 : x = z <;> simp_all <;> omega

theorem D_triangle (a b c : Bytes) : D a c ≤ D a b + D b c := by
  obtain ⟨k, hk, h⟩ := Al.trans' _ (Nat.le_refl _) (Al.of_D a b) (Al.of_D b c)
  exact Nat.le_trans (D_le_of_Al h) hk

theorem D_reverse (a b : Bytes) : D a.reverse b.reverse = D a b := by
  apply Nat.le_antisymm
  · exact D_le_of_Al (Al.of_D a b).reverse
  · have := (Al.of_D a.reverse b.reverse).reverse
    simp only [List.reverse_reverse] at this
    exact D_le_of_Al this

theorem D_symm (a b : Bytes) : D a b = D b a :=
  Nat.le_antisymm (D_le_of_Al (Al.of_D b a).symm) (D_le_of_Al (Al.of_D a b).symm)

theorem D_self (a : Bytes) : D a a = 0 := Nat.le_zero.mp (D_le_of_Al (Al.refl a))

theorem Al.zero {a b : Bytes} {n : Nat} (h : Al a b n) : n = 0 → a = b := by
  induction h with
  | nil => intro _; rfl
  | ins y h ih => intro h; omega
  | del y h ih => intro h; omega
  | sub x y h ih =>
    intro h
    by_cases hx : x = y
    · rw [if_pos hx] at h; rw [hx, ih h]
    · rw [if_neg hx] at h; omega

theorem D_eq_zero (a b : Bytes) : D a b = 0 ↔ a = b :=
  ⟨(Al.of_D a b).zero, fun h => h ▸ D_self a⟩

theorem Al.bounds {a b : Bytes} {n : Nat} (h : Al a b n) : a.length ≤ b.length + n ∧ b.length ≤ a.length + n := by
  induction h with
  | nil => simp
  | ins y h ih => simp; omega
  | del y h ih => simp; omega
  | sub x y h ih => simp; omega

theorem Al.max : ∀ a b : Bytes, ∃ n, n ≤ Max.max a.length b.length ∧ Al a b n
  | [], b => ⟨_, by simp, Al.all_ins b⟩
  | x :: a, [] => ⟨_, by simp, Al.all_del (x :: a)⟩
  | x :: a, y :: b => by
    obtain ⟨n, h1, h2⟩ := Al.max a b
    refine ⟨_, ?_, Al.sub x y h2⟩
    simp
    by_cases h : x = y <;> simp [h] <;> omega

theorem D_edit {a b : Bytes} (h : Edit a b) : D a b ≤ 1 := by
  cases h with
  | insert p s c =>
    have := (Al.refl p).append ((Al.ins c .nil).append (Al.refl s))
    simpa using D_le_of_Al this
  | delete p s c =>
    have := (Al.refl p).append ((Al.del c .nil).append (Al.refl s))
    simpa using D_le_of_Al this
  | substitute p s c d =>
    have := (Al.refl p).append ((Al.sub c d .nil).append (Al.refl s))
    have := D_le_of_Al this
    simp at this ⊢
    split at this <;> omega

theorem D_edits {n : Nat} {a b : Bytes} (h : Edits n a b) : D a b ≤ n := by
  induction h with
  | done a => rw [D_self]; exact Nat.le_refl 0
  | @step n a b c h e ih =>
    have h1 := D_triangle a b c
    have h2 := D_edit e
    omega

theorem Edits.trans {m n : Nat} {a b c : Bytes} (h1 : Edits m a b) (h2 : Edits n b c) : Edits (m + n) a c := by
  induction h2 with
  | done => exact h1
  | step h e ih => exact .step (ih h1) e

theorem Edits.of_Al {a b : Bytes} {n : Nat} (h : Al a b n) : ∀ p, Edits n (p ++ a) (p ++ b) := by
  induction h with
  | nil => intro p; exact .done _
  | @ins a b n y h ih =>
    intro p
    refine .step (ih p) ?_
    have := Edit.insert p b y
    simpa using this
  | @del a b n y h ih =>
    intro p
    have h1 : Edits 1 (p ++ y :: a) (p ++ a) := .step (.done _) (by simpa using Edit.delete p a y)
    have := Edits.trans h1 (ih p)
    rwa [Nat.add_comm] at this
  | @sub a b n x y h ih =>
    intro p
    have h2 := ih (p ++ [y])
    simp only [List.append_assoc, List.singleton_append] at h2
    by_cases hx : x = y
    · subst hx
      simpa using h2
    · rw [if_neg hx]
      have h1 : Edits 1 (p ++ x :: a) (p ++ y :: a) := .step (.done _) (by simpa using Edit.substitute p a x y)
      have := Edits.trans h1 h2
      rwa [Nat.add_comm] at this

/-- The cells of a row from one column on: distances of `ra` (a reversed prefix) to the reversed prefixes that extend `pb`. -/
def cells (ra : Bytes) : (pb : Bytes) → (b : Bytes) → List Nat
  | pb, [] => [D ra pb]
  | pb, y :: b => D ra pb :: cells ra (y :: pb) b

theorem cells_cons (ra pb b : Bytes) : cells ra pb b = D ra pb :: (cells ra pb b).tail := by cases b <;> simp [cells]

theorem levRow_cells (x : Byte) (ra : Bytes) : ∀ (b pb : Bytes), levRow x (cells ra pb b) b (D (x :: ra) pb) = (cells (x :: ra) pb b).tail := by
  intro b
  induction b with
  | nil => intro pb; simp [levRow, cells]
  | cons y b ih =>
    intro pb
    rw [cells, cells_cons ra (y :: pb) b, levRow]
    have hv : min (min (D ra (y :: pb) + 1) (D (x :: ra) pb + 1)) (D ra pb + if x = y then 0 else 1) = D (x :: ra) (y :: pb) := by rw [D]
    simp only [hv]
    rw [← cells_cons, ih, cells]
    simp only [List.tail_cons]
    rw [← cells_cons]

theorem levRows_cells (b : Bytes) : ∀ (a ra : Bytes), levRows b (ra.length + 1) a (cells ra [] b) = cells (a.reverse ++ ra) [] b := by
  intro a
  induction a with
  | nil => intro ra; simp [levRows]
  | cons x a ih =>
    intro ra
    rw [levRows]
    have h1 : ra.length + 1 = D (x :: ra) [] := by simp [D]
    have h2 : (ra.length + 1) :: levRow x (cells ra [] b) b (ra.length + 1) = cells (x :: ra) [] b := by
      conv => lhs; rw [h1]
      rw [levRow_cells, ← cells_cons]
    rw [h2]
    have := ih (x :: ra)
    simpa using this

theorem cells_range : ∀ (b pb : Bytes), cells [] pb b = List.range' pb.length (b.length + 1) := by
  intro b
  induction b with
  | nil => intro pb; simp [cells, D]
  | cons y b ih => intro pb; rw [cells, ih]; simp [D, List.range'_succ]

theorem cells_last : ∀ (b pb ra : Bytes), (cells ra pb b).getD b.length 0 = D ra (b.reverse ++ pb) := by
  intro b
  induction b with
  | nil => intro pb ra; simp [cells]
  | cons y b ih => intro pb ra; simp [cells, ← ih]

theorem levenshtein_D (a b : Bytes) : levenshtein a b = D a b := by
  unfold levenshtein
  split
  · rename_i h; rw [h, D_self]
  · have h1 : List.range (b.length + 1) = cells [] [] b := by rw [cells_range, List.range_eq_range']; simp
    have h2 := levRows_cells b a []
    simp only [List.length_nil, Nat.zero_add, List.append_nil] at h2
    rw [h1, h2, cells_last, List.append_nil, D_reverse]

end Verif.Lemmas
