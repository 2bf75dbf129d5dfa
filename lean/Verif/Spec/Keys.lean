import Verif.Model.Loop
/-!
# Specification: keys and commands
-/
namespace Verif.Spec.Keys
open Verif.Model Verif.Model.Search Verif.Model.Loop

/-- A key whose name begins with `^`: Escape, Enter, Tab, Backspace, every key typed with Control, and `^` itself. -/
def Control (env : Env) (c : Nat) : Prop := ∃ t, keyname env.other (toupper c) = some (c%'^' :: t)

/-- A key with another name. -/
def Plain (env : Env) (c : Nat) : Prop := ∃ t, keyname env.other (toupper c) = some t ∧ t.head? ≠ some c%'^'

/-- The name of a key; letters have the names of capitals. -/
def name (env : Env) (c : Nat) : Bytes := (keyname env.other (toupper c)).getD []

/-- The name of a command: the names of its keys, with hyphens in between. -/
def joined : List Bytes → Bytes
  | [] => []
  | [a] => a
  | a :: l => a ++ b!"-" ++ joined l

/-- The commands of the views. (No manual lists them; the names are those of `src/curseOutput.cpp:117-156`.) -/
def commands : List Bytes :=
  [b!"Q", b!"K", b!"KEY_UP", b!"J", b!"KEY_DOWN", b!"KEY_PPAGE", b!"KEY_NPAGE", b!"L", b!"KEY_RIGHT", b!"H", b!"KEY_LEFT", b!"/", b!"N",
    b!"^W-W", b!"^W-KEY_RIGHT", b!"^W-L", b!"^W-KEY_LEFT", b!"^W-H"]

/-- Commands, one after the other; with `/`, what is searched for, if anything. -/
def obey {σ : Type} (V : View σ) : List (Bytes × Option Pattern) → σ → Result σ
  | [], s => .waits (begin s)
  | (name, pat) :: l, s =>
    match V.key name pat s with
    | none => .unknown
    | some .quit => .ended
    | some .crash => .crash
    | some (.next s) => obey V l s

/-- The view after some changes of the size of the terminal. -/
inductive Resized {σ : Type} (V : View σ) : σ → σ → Prop
  | refl (s : σ) : Resized V s s
  | step {s t u : σ} {cols rows : Nat} : Resized V s t → V.resize cols rows t = some (.next u) → Resized V s u

/-- The keys of a command: any number of keys with Control, and another key. -/
structure Typed (env : Env) (keys : List Nat) (command : Bytes) : Prop where
  shape : ∃ l c, keys = l ++ [c] ∧ (∀ d ∈ l, Control env d) ∧ Plain env c
  named : command = joined (keys.map (name env))

/-- A text after some keys, the two codes of Backspace taking away its last letter. -/
def editedFrom (text : List Nat) : List Nat → List Nat
  | [] => text
  | c :: keys => editedFrom (if c = 8 ∨ c = 127 then text.dropLast else text ++ [c]) keys

/-- Keys that leave the prompt open. -/
def Letters (keys : List Nat) : Prop := ∀ c ∈ keys, c ≠ c%'\n' ∧ c ≠ c%'\r' ∧ c ≠ 27

/-- The keys of commands, one after the other: those of a command other than `/`; `/`, a text and Enter; `/`, a text and Escape. -/
inductive TypedAll (env : Env) : List Nat → List (Bytes × Option Pattern) → Prop
  | nil : TypedAll env [] []
  | command {keys more : List Nat} {command : Bytes} {rest : List (Bytes × Option Pattern)} :
    Typed env keys command → command ≠ b!"/" → TypedAll env more rest → TypedAll env (keys ++ more) ((command, none) :: rest)
  | search {keys more : List Nat} {enter : Nat} {p : Pattern} {rest : List (Bytes × Option Pattern)} : Letters keys → enter = c%'\n' ∨ enter = c%'\r' →
    lineToPattern env.rx env.junk env.surr env.enc env.ascii (editedFrom [] keys) false = .pattern p → TypedAll env more rest →
    TypedAll env (c%'/' :: keys ++ enter :: more) ((b!"/", some p) :: rest)
  | cancel {keys more : List Nat} {rest : List (Bytes × Option Pattern)} : Letters keys →
    lineToPattern env.rx env.junk env.surr env.enc env.ascii (editedFrom [] keys) true = .cancelled → TypedAll env more rest →
    TypedAll env (c%'/' :: keys ++ 27 :: more) ((b!"/", none) :: rest)

/-- The size of the terminal after some events. -/
def sizeAfter (size : Nat × Nat) : List Event → Nat × Nat
  | [] => size
  | .resize cols rows :: es => sizeAfter (cols, rows) es
  | _ :: es => sizeAfter size es

end Verif.Spec.Keys
