import Verif.Lemmas.ReaderStrict
import Verif.Lemmas.Eval
/-!
# Properties C01, C03, C04, C05, C08: the reader and the trees it delivers

`Model.read env (St.init junk n input)` is `StreamConsumer::read()` on a new reader over the bytes `input` (`junk`, `n` are
the uninitialised memory of the error history); `.ret (some v) s'` means: it returned, and `getRoot()` is `v`.
-/
namespace Verif.Props
open Verif.Model Verif.Spec Verif.Lemmas

/-- Settings of the program: `-W`, `--ascii`, `--keep-order` (`surr`: library behaviour on lone surrogates). -/
def envOf (strict ascii sort : Bool) (surr : Nat → Option Bytes := fun _ => none) : Env :=
  ⟨some ⟨strict, ascii, sort⟩, surr⟩

/-- **C01.** Reading ends on every input: the recursion bound of the model is never hit, any larger bound gives the same
outcome, and what is left unread is a suffix of the input. -/
theorem C01_read_terminates (env : Env) (junk : List Byte) (n : Nat) (input : Bytes) :
    Model.read env (St.init junk n input) ≠ .fuel ∧
    (∀ fuel, 2 * input.length + 4 ≤ fuel → readNext env fuel (St.init junk n input) = Model.read env (St.init junk n input)) ∧
    (∀ r s', Model.read env (St.init junk n input) = .ret r s' → s'.rest <:+ input) := by
  have hp := read_post env (St.init junk n input) (init_exhausted junk n input)
  have hne : Model.read env (St.init junk n input) ≠ .fuel := by
    intro he; rw [he] at hp; simp [Out.Post] at hp
  exact ⟨hne, fun fuel hf => ((reader_mono env _ fuel hf).1 _) hne, fun r s' h => (Post.of_ret hp h).2.2⟩

example : ∃ s', Model.read (envOf true false true) (St.init [] 7 b!"[1,{\"a\":[]}] rest") =
    .ret (some (.arr [.int 1, .obj [(b!"a", .arr [])]])) s' ∧ decide (s'.rest = b!" rest") = true :=
  returns_sound (by decide +kernel)

/-- **C03.** In every delivered tree no object, at any depth, has two entries with the same key. -/
theorem C03_keys_unique (env : Env) (junk : List Byte) (n : Nat) (input : Bytes) (v : Json) (s' : St)
    (h : Model.read env (St.init junk n input) = .ret (some v) s') (es : List (Bytes × Json)) (hw : Within (.obj es) v) :
    (es.map Prod.fst).Nodup :=
  (inv_within env (fun _ => True) trivial (fun _ _ _ _ _ _ => trivial) (fun _ _ _ _ => trivial) _ _ _
    (init_exhausted _ _ _) h es hw).2

/-- Under `-W`, with repeated keys at two levels, in source order. -/
example : ∃ s', Model.read (envOf false false false) (St.init [] 0 b!"[{\"b\":1,\"a\":2,\"b\":{\"x\":1,\"x\":2}}]") =
    .ret (some (.arr [.obj [(b!"a", .int 2), (b!"b", .obj [(b!"x", .int 2)])]])) s' ∧ true = true :=
  returns_sound (by decide +kernel)

/-- **C04.** (1) Without `--keep-order` the keys of every object are strictly increasing. (2) With and without
`--keep-order` reading succeeds on the same inputs and ends in the same state, and the first tree is the key-sort of the
second one. -/
theorem C04_sorted (strict ascii : Bool) (surr : Nat → Option Bytes) (junk : List Byte) (n : Nat) (input : Bytes) :
    (∀ v s', Model.read (envOf strict ascii true surr) (St.init junk n input) = .ret (some v) s' →
      ∀ es, Within (.obj es) v → (es.map Prod.fst).Pairwise (· < ·)) ∧
    (∀ r s', Model.read (envOf strict ascii true surr) (St.init junk n input) = .ret r s' ↔
      ∃ w, Model.read (envOf strict ascii false surr) (St.init junk n input) = .ret w s' ∧ r = w.map sortTree) := by
  constructor
  · intro v s' h es hw
    refine (inv_within (envOf strict ascii true surr) Increasing List.Pairwise.nil ?_ ?_ _ _ _ (init_exhausted _ _ _) h es hw).1
    · intro es k v _ hi hk
      simp only [addEntry, envOf, Env.sort, if_true]
      exact sortedPush_increasing es k v hi hk
    · intro es k _ hi
      exact erase_increasing es k hi
  · intro r s'
    exact read_sort_iff (env1 := envOf strict ascii true surr) (env2 := envOf strict ascii false surr) (fun s => consumeToken_congr (envOf strict ascii true surr) (envOf strict ascii false surr) rfl rfl rfl (by simp [envOf]) s) rfl rfl rfl _
      (init_exhausted _ _ _) r s'

example : ∃ s', Model.read (envOf true false true) (St.init [] 0 b!"{\"b\":1,\"a\":{\"d\":2,\"c\":3}}") =
    .ret (some (.obj [(b!"a", .obj [(b!"c", .int 3), (b!"d", .int 2)]), (b!"b", .int 1)])) s' ∧ true = true :=
  returns_sound (by decide +kernel)

/-- **C05.** A strict read that returns leaves no message, and `-W` on the same input returns the same root and ends in the
same state (so without a message too). -/
theorem C05_strict_conservative (ascii sort : Bool) (surr : Nat → Option Bytes) (junk : List Byte) (n : Nat) (input : Bytes)
    (r : Option Json) (s' : St) (h : Model.read (envOf true ascii sort surr) (St.init junk n input) = .ret r s') :
    s'.warns = [] ∧ Model.read (envOf false ascii sort surr) (St.init junk n input) = .ret r s' := by
  have := read_strict (env1 := envOf true ascii sort surr) (env2 := envOf false ascii sort surr) rfl (by simp [envOf]) rfl rfl rfl
    _ (init_exhausted junk n input) r s' h
  exact ⟨this.2, this.1⟩

example : ∃ s', Model.read (envOf true false true) (St.init [] 0 b!"{\"a\":\"x\\n\",\"b\":null}") =
    .ret (some (.obj [(b!"a", .str b!"x\\n"), (b!"b", .null)])) s' ∧ true = true :=
  returns_sound (by decide +kernel)

/-- **C08.** If reading `input` returns while the stream is still good (so after a container, or a string, ...), reading
`input` followed by any bytes returns the same root with the same messages, and leaves exactly those bytes too. -/
theorem C08_suffix_ignored (env : Env) (junk : List Byte) (n : Nat) (input extra : Bytes) (r : Option Json) (s' : St)
    (h : Model.read env (St.init junk n input) = .ret r s') (hg : s'.good = true) :
    Model.read env (St.init junk n (input ++ extra)) = .ret r { s' with rest := s'.rest ++ extra } :=
  read_extend (env := env) extra _ (init_exhausted junk n input) r s' h hg

example : ∃ s', Model.read (envOf true false true) (St.init [] 0 b!"[[true ],\"]\"]") =
    .ret (some (.arr [.arr [.bool true], .str b!"]"])) s' ∧ s'.good = true :=
  returns_sound (by decide +kernel)

end Verif.Props
