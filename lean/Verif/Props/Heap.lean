import Verif.Lemmas.HeapReader
import Verif.Lemmas.HeapNav
import Verif.Props.ReaderGrammar
import Verif.Spec.Document
/-!
# Properties C98, C99, C100: the objects of a document, their pointers, their memory
-/
namespace Verif.Props
open Verif.Model Verif.Model.Heap Verif.Spec Verif.Spec.Heap Verif.Lemmas Verif.Lemmas.Heap

theorem fresh_empty : Lemmas.Heap.Fresh Mem.empty := fun _ _ => rfl

/-- The reader with its objects and the reader have the same outcome. -/
theorem heap_read (env : Env) (s : St) : Agrees (Model.read env s) (Heap.read env s)
    (fun v a m => Frame 0 Mem.empty m ∧ match v, a with | none, none => m = Mem.empty | some v, some a => Gives false 0 Mem.empty none v a m | _, _ => False) := by
  have := (reader_agrees false env (2 * s.rest.length + 4)).1 none s Mem.empty fresh_empty
  rw [(Quiet.loud env _).1] at this
  exact this

/-- What was read is stored, and destroyed in one go. -/
theorem heap_stored {env : Env} {s s' : St} {v : Json} (h : Model.read env s = .ret (some v) s') :
    ∃ a m as, Heap.read env s = .ret (some a) s' m ∧ Stores m none v a as ∧ as.Nodup ∧ close (some a) m = .done (without m as) := by
  have := heap_read env s
  rw [h] at this
  cases hr : Heap.read env s with
  | ret a s2 m =>
    rw [hr] at this
    obtain ⟨rfl, hf, this⟩ := this
    cases a with
    | none => exact absurd this (by simp)
    | some a =>
      obtain ⟨_, as, hm, _⟩ := this
      refine ⟨a, m, as, rfl, hm.stores, hm.nodup, ?_⟩
      exact delete_stores v hm.stores hm.nodup (nodup_length hm.nodup (fun x hx => hf.fresh.lt (stores_live v hm.stores x hx)))
  | _ => rw [hr] at this; exact absurd this (by simp [Agrees])

/-! ## C98 -/

/-- **C98.** Whatever is read, its elements are objects in memory, one for each position of the document (and no two positions share one), each being what the document has there; the
root has no parent, every other element has as parent the element it is directly in; `getLevel()` is the depth; and `findPrev()` and `findNext()`, which follow pointers and compare them,
give the elements at the positions that `Model/Navigate.lean` gives (C43 tells which). -/
theorem C98_pointers (env : Env) (junk : List Byte) (n : Nat) (input : Bytes) (v : Json) (s' : St) (h : Model.read env (St.init junk n input) = .ret (some v) s') :
    ∃ a m, Heap.read env (St.init junk n input) = .ret (some a) s' m ∧
      (∀ p, elem v p = none → follow m a p = none) ∧
      (∀ p e, elem v p = some e → ∃ x, follow m a p = some x ∧ IsObject m x e ∧
        (∀ q, follow m a q = some x → q = p) ∧
        (∃ o, m.get x = some o ∧ (p = [] → o.parent = none) ∧ ∀ r i, p = r ++ [i] → ∃ y, follow m a r = some y ∧ o.parent = some y) ∧
        getLevel m (p.length + 1) (some x) = some (p.length + 1) ∧
        Heap.findPrev m x = (Nav.findPrev v p).bind (follow m a) ∧
        Heap.findNext m (p.length + 1) x = (Nav.findNext v p).bind (follow m a)) := by
  obtain ⟨a, m, as, h1, h2, h3, _⟩ := heap_stored h
  refine ⟨a, m, h1, fun p hp => (follow_elem p (e := .value v) h2 h3).2 hp, fun p e he => ?_⟩
  obtain ⟨x, b, par, g1, g2, g3, g4, g5, g6, g7⟩ := elem_parent h2 h3 p he
  refine ⟨x, g1, elem_object g2, fun q hq => follow_inj q p (e := .value v) h2 h3 hq g1, ?_, level_spec h2 h3 p g1 _ (by omega), findPrev_spec h2 h3 p g1, findNext_spec h2 h3 p g1 _ (by omega)⟩
  obtain ⟨b', t, g8, _⟩ := elem_root g2
  refine ⟨_, g8, g6, fun r i hr => ?_⟩
  have := g7 r i hr
  subst hr
  rw [follow_append] at g1
  cases hf : follow m a r with
  | none => simp [hf] at g1
  | some y => exact ⟨y, rfl, by rw [this, hf]⟩

/-- What is asked of a memory after a read. -/
def afterRead (env : Env) (input : Bytes) (p : Option Addr → Mem → Bool) : Bool :=
  match Heap.read env (St.init [] 0 input) with
  | .ret r _ m => p r m
  | _ => false

theorem afterRead_some {env : Env} {input : Bytes} {p : Option Addr → Mem → Bool} (h : afterRead env input p = true) :
    ∃ r s' m, Heap.read env (St.init [] 0 input) = .ret r s' m ∧ p r m = true := by
  unfold afterRead at h
  split at h
  · exact ⟨_, _, _, by assumption, h⟩
  · simp at h

/-- `{"a":[1,{"b":2}]}`: the `2` is on level 6, and `findPrev` of the second item is the `1`. -/
example : ∃ r s' m, Heap.read (envOf true false true) (St.init [] 0 b!"{\"a\":[1,{\"b\":2}]}") = .ret r s' m ∧
    (r.bind fun a => (follow m a [0, 0, 1, 0, 0]).bind fun x => getLevel m 10 (some x)) = some 6 ∧
    (r.bind fun a => (follow m a [0, 0, 1]).bind fun x => Heap.findPrev m x) = (r.bind fun a => follow m a [0, 0, 0]) ∧
    (r.bind fun a => follow m a [0, 0, 0]).isSome = true := by
  obtain ⟨r, s', m, h1, h2⟩ := afterRead_some (env := envOf true false true) (input := b!"{\"a\":[1,{\"b\":2}]}")
    (p := fun r m => decide ((r.bind fun a => (follow m a [0, 0, 1, 0, 0]).bind fun x => getLevel m 10 (some x)) = some 6) &&
      (decide ((r.bind fun a => (follow m a [0, 0, 1]).bind fun x => Heap.findPrev m x) = (r.bind fun a => follow m a [0, 0, 0])) &&
      (r.bind fun a => follow m a [0, 0, 0]).isSome)) (by decide +kernel)
  simp only [Bool.and_eq_true, decide_eq_true_eq] at h2
  exact ⟨r, s', m, h1, h2⟩

/-! ## C99 -/

/-- **C99 does not hold**: a value in the place of the brace that ends an object ends the object, and nobody destroys that value; and after an error nobody destroys what was read before. -/
theorem C99_memory_false :
    (∃ a s' m m' x, Heap.read (envOf true false true) (St.init [] 0 b!"{\"a\":1 2") = .ret (some a) s' m ∧ close (some a) m = .done m' ∧ m'.get x ≠ none) ∧
    (∃ e m x, Heap.read (envOf true false true) (St.init [] 0 b!"[1 2") = .throw e m ∧ m.get x ≠ none) := by
  constructor
  · obtain ⟨r, s', m, h1, h2⟩ : ∃ r s' m, Heap.read (envOf true false true) (St.init [] 0 b!"{\"a\":1 2") = .ret r s' m ∧
        (match r with | none => false | some a => (match close (some a) m with | .done m' => (m'.get 4).isSome | _ => false)) = true := by
      have : (match Heap.read (envOf true false true) (St.init [] 0 b!"{\"a\":1 2") with
        | .ret r _ m => (match r with | none => false | some a => (match close (some a) m with | .done m' => (m'.get 4).isSome | _ => false))
        | _ => false) = true := by decide +kernel
      split at this
      · exact ⟨_, _, _, by assumption, this⟩
      · simp at this
    cases r with
    | none => simp at h2
    | some a =>
      dsimp only at h2
      split at h2
      · rename_i m' hm'
        exact ⟨a, s', m, m', 4, h1, hm', by intro e; rw [e] at h2; simp at h2⟩
      · simp at h2
  · have : (match Heap.read (envOf true false true) (St.init [] 0 b!"[1 2") with
      | .throw _ m => (m.get 0).isSome
      | _ => false) = true := by decide +kernel
    split at this
    · rename_i e m hm
      exact ⟨e, m, 0, hm, by intro e; rw [e] at this; simp at this⟩
    · simp at this

/-- **C99, the part that holds.** For every input: no object is used or destroyed that is not there (any more), neither while reading nor by the destructor of the consumer; the outcome is
that of `Model.read`; and after the destructor no element of the document is left. For the text of every document (in relaxed mode also one with repeated keys), whatever follows a container:
after the destructor nothing at all is left. What is left by errors, and by a value in the place of a brace: `C99_exactly_partial`, `C99_errors_partial`. -/
theorem C99_memory_partial (env : Env) (junk : List Byte) (n : Nat) :
    (∀ input, Heap.read env (St.init junk n input) ≠ .bad ∧ Heap.read env (St.init junk n input) ≠ .fuel ∧
      (∀ e, (∃ m, Heap.read env (St.init junk n input) = .throw e m) ↔ Model.read env (St.init junk n input) = .throw e) ∧
      ∀ r s' m, Heap.read env (St.init junk n input) = .ret r s' m → ∃ m', close r m = .done m' ∧
        (r = none → ∀ x, m'.get x = none) ∧
        (∀ a p x, r = some a → follow m a p = some x → m.get x ≠ none ∧ m'.get x = none)) ∧
    (∀ (d : Doc) (w rest : Bytes), d.WF env.ascii → d.Fits → (env.strictOr = true → d.Distinct env.ascii) → Blank w → (Blank rest ∨ d.IsContainer) →
      ∃ a s' m m', Heap.read env (St.init junk n (w ++ d.text ++ rest)) = .ret (some a) s' m ∧ close (some a) m = .done m' ∧ ∀ x, m'.get x = none) := by
  constructor
  · intro input
    have hag := heap_read env (St.init junk n input)
    have hterm : Model.read env (St.init junk n input) ≠ .fuel := by
      intro e
      have := read_post env _ (init_exhausted junk n input)
      rw [e] at this
      simp [Out.Post] at this
    cases hm : Model.read env (St.init junk n input) with
    | fuel => exact absurd hm hterm
    | ret v s' =>
      rw [hm] at hag
      cases hh : Heap.read env (St.init junk n input) with
      | ret a s2 m =>
        rw [hh] at hag
        obtain ⟨rfl, hf, hag⟩ := hag
        refine ⟨by simp, by simp, fun e => by simp, ?_⟩
        intro r s3 m3 he
        simp only [HOut.ret.injEq] at he
        obtain ⟨rfl, rfl, rfl⟩ := he
        cases a with
        | none =>
          cases v with
          | none =>
            dsimp only at hag
            subst hag
            exact ⟨Mem.empty, rfl, fun _ x => rfl, fun a p x h => by simp at h⟩
          | some v => exact absurd hag (by simp)
        | some a =>
          cases v with
          | none => exact absurd hag (by simp)
          | some v =>
            obtain ⟨b, m', as, g1, g2, g3, g4⟩ := heap_stored hm
            rw [hh] at g1
            simp only [HOut.ret.injEq, Option.some.injEq, true_and] at g1
            obtain ⟨rfl, rfl⟩ := g1
            refine ⟨_, g4, by simp, ?_⟩
            intro a' p x ha hx
            simp only [Option.some.injEq] at ha
            subst ha
            cases he : (Elem.value v).at p with
            | none => rw [(follow_elem p (e := .value v) g2 g3).2 he] at hx; simp at hx
            | some e =>
              obtain ⟨y, b, par, k1, k2, k3, k4, k5, _⟩ := elem_parent g2 g3 p he
              rw [hx, Option.some.injEq] at k1
              subst k1
              obtain ⟨b', t, k8, rfl⟩ := elem_root k2
              have := k5 x (by simp)
              exact ⟨by rw [k8]; simp, by simp [without_get, this]⟩
      | _ => rw [hh] at hag; exact absurd hag (by simp [Agrees])
    | throw e =>
      rw [hm] at hag
      cases hh : Heap.read env (St.init junk n input) with
      | throw e' m =>
        rw [hh] at hag
        simp only [Agrees] at hag
        subst hag
        exact ⟨by simp, by simp, fun e' => by simp, fun r s' m h => by simp at h⟩
      | _ => rw [hh] at hag; exact absurd hag (by simp [Agrees])
    | uncaught e =>
      rw [hm] at hag
      cases hh : Heap.read env (St.init junk n input) with
      | uncaught e' m => exact ⟨by simp, by simp, fun e' => by simp, fun r s' m h => by simp at h⟩
      | _ => rw [hh] at hag; exact absurd hag (by simp [Agrees])
    | ub e =>
      rw [hm] at hag
      cases hh : Heap.read env (St.init junk n input) with
      | ub e' => exact ⟨by simp, by simp, fun e' => by simp, fun r s' m h => by simp at h⟩
      | _ => rw [hh] at hag; exact absurd hag (by simp [Agrees])
  · intro d w rest hwf hfit hdist hw hr
    have hok : okD env.ascii env.strictOr d := (okD_iff _ _ d).mpr ⟨hfit, hdist⟩
    obtain ⟨f, g, h, ws, hg, hws, e⟩ := Quiet.readsD true env d hwf hok w rest (LHist.init junk n) [] hw (follow_of hr)
    have hread := Quiet.quiet_of_item (init_exhausted junk n (w ++ d.text ++ rest)) e
    have hag := (reader_agrees true env (2 * (St.init junk n (w ++ d.text ++ rest)).rest.length + 4)).1 none (St.init junk n (w ++ d.text ++ rest)) Mem.empty fresh_empty
    rw [hread] at hag
    change Agrees _ (Heap.read env (St.init junk n (w ++ d.text ++ rest))) _ at hag
    cases hh : Heap.read env (St.init junk n (w ++ d.text ++ rest)) with
    | ret a s2 m =>
      rw [hh] at hag
      obtain ⟨_, hf, hag⟩ := hag
      cases a with
      | none => exact absurd hag (by simp)
      | some a =>
        obtain ⟨_, as, hmade, ht⟩ := hag
        refine ⟨a, s2, m, _, rfl, delete_stores _ hmade.stores hmade.nodup (nodup_length hmade.nodup (fun x hx => hf.fresh.lt (stores_live _ hmade.stores x hx))), fun x => ?_⟩
        rw [without_get]
        split
        · rfl
        · rename_i hx
          cases hl : m.get x with
          | none => rfl
          | some o => exact absurd (ht rfl x (Nat.zero_le _) (by rw [hl]; simp)) hx
    | _ => rw [hh] at hag; exact absurd hag (by simp [Agrees])

/-- `docExample` of C02 meets the hypotheses. -/
example : docExample.WF false ∧ docExample.Fits ∧ docExample.Distinct false := by
  refine ⟨?_, ?_, ?_⟩
  · simp [docExample, Doc.WF, Members.WF, Items.WF, strWF, StrItem.WF, Blank, Digits]
    exact ⟨0xE9, by decide, by decide⟩
  · simp [docExample, Doc.Fits, Members.Fits, Items.Fits, FitsLong, intValue, decimal]
  · simp [docExample, Doc.Distinct, Members.Distinct, Items.Distinct, Members.keys, strValue, StrItem.value]
/-- A document with a repeated key, in relaxed mode: 12 objects are made, after the destructor none is left. -/
example : ∃ r s' m, Heap.read (envOf false false true) (St.init [] 0 b!"{\"b\":[1,{}],\"a\":2,\"b\":[]}") = .ret r s' m ∧
    decide (m.next = 12) && (match close r m with
      | .done m' => (List.range 20).all fun x => (m'.get x).isNone
      | _ => false) = true :=
  afterRead_some (by decide +kernel)

/-! ## C100 -/

/-- No number with a fraction. -/
def solid (m : Mem) (x : Addr) : Bool :=
  match m.get x with
  | some ⟨_, .prim (.dbl _)⟩ => false
  | _ => true

theorem equals_fmt {m : Mem} {x y : Addr} (hx : solid m x = true) (hy : solid m y = true) (fmt fmt' : Bytes → Bytes) : equals fmt m x y = equals fmt' m x y := by
  unfold equals
  unfold solid at hx hy
  cases ex : m.get x with
  | none => rfl
  | some o =>
    cases ey : m.get y with
    | none => rfl
    | some o' =>
      rw [ex] at hx
      rw [ey] at hy
      obtain ⟨p, b⟩ := o
      obtain ⟨p', b'⟩ := o'
      dsimp only
      cases b with
      | prim v =>
        have e1 : v.stringify fmt = v.stringify fmt' := by cases v <;> first | rfl | simp at hx
        have e2 : text fmt b' = text fmt' b' := by
          cases b' with
          | prim w => cases w <;> first | rfl | simp at hy
          | _ => rfl
        simp only [e1, e2]
      | _ => rfl

/-- What is asked of two items. -/
def itemsEqual (m : Mem) (r : Addr) (i j : Nat) (want : Bool) : Bool :=
  match follow m r [i], follow m r [j] with
  | some x, some y => solid m x && (solid m y && decide (equals id m x y = some want))
  | _, _ => false

theorem itemsEqual_some {m : Mem} {r : Addr} {i j : Nat} {want : Bool} (h : itemsEqual m r i j want = true) (fmt : Bytes → Bytes) :
    ∃ x y, follow m r [i] = some x ∧ follow m r [j] = some y ∧ equals fmt m x y = some want := by
  unfold itemsEqual at h
  split at h
  · rename_i x y hx hy
    simp only [Bool.and_eq_true, decide_eq_true_eq] at h
    exact ⟨x, y, hx, hy, by rw [equals_fmt h.1 h.2.1 fmt id]; exact h.2.2⟩
  · simp at h

/-- **C100 does not hold**: `==` compares the items of containers, and the values of entries, as pointers, and primitives by their texts. In `[[1],[1],[],{},"1",1]` the first two items have the
same contents and are not equal; the next two differ and are equal; so are the last two. -/
theorem C100_equal_false (fmt : Bytes → Bytes) :
    ∃ r s' m, Heap.read (envOf true false true) (St.init [] 0 b!"[[1],[1],[],{},\"1\",1]") = .ret (some r) s' m ∧
      (∃ x y, follow m r [0] = some x ∧ follow m r [1] = some y ∧ equals fmt m x y = some false) ∧
      (∃ x y, follow m r [2] = some x ∧ follow m r [3] = some y ∧ equals fmt m x y = some true) ∧
      (∃ x y, follow m r [4] = some x ∧ follow m r [5] = some y ∧ equals fmt m x y = some true) := by
  obtain ⟨r, s', m, h1, h2⟩ := afterRead_some (env := envOf true false true) (input := b!"[[1],[1],[],{},\"1\",1]")
    (p := fun r m => match r with
      | none => false
      | some r => itemsEqual m r 0 1 false && (itemsEqual m r 2 3 true && itemsEqual m r 4 5 true)) (by decide +kernel)
  cases r with
  | none => simp at h2
  | some r =>
    simp only [Bool.and_eq_true] at h2
    exact ⟨r, s', m, h1, itemsEqual_some h2.1 fmt, itemsEqual_some h2.2.1 fmt, itemsEqual_some h2.2.2 fmt⟩

/-- `stringify()` of an element. -/
def elemText (fmt : Bytes → Bytes) : Elem → Bytes
  | .value v => v.stringify fmt
  | .entry k _ => k

theorem zip_all_eq (l l' : List Nat) : (decide (l.length = l'.length) && (l.zip l').all fun x => decide (x.1 = x.2)) = true ↔ l = l' := by
  induction l generalizing l' with
  | nil => cases l' <;> simp
  | cons a l ih =>
    cases l' with
    | nil => simp
    | cons b l' =>
      have := ih l'
      simp only [Bool.and_eq_true, decide_eq_true_eq] at this
      simp only [List.length_cons, List.zip_cons_cons, List.all_cons, Bool.and_eq_true, decide_eq_true_eq, List.cons.injEq, ← this, Nat.add_right_cancel_iff]
      exact ⟨fun ⟨h1, h2, h3⟩ => ⟨h2, h1, h3⟩, fun ⟨h1, h2, h3⟩ => ⟨h2, h1, h3⟩⟩

/-- **C100, the part that holds.** Of two elements of a document that was read: a container is equal to exactly the containers that are itself, or that are empty as it is; an entry is equal to
itself only; any other value is equal to exactly the elements with the same text. So every element is equal to itself, and values with the same contents are equal if they are no
containers. Missing: the contents of containers and entries are not compared. -/
theorem C100_equal_partial (fmt : Bytes → Bytes) (env : Env) (junk : List Byte) (n : Nat) (input : Bytes) (v : Json) (s' : St) (h : Model.read env (St.init junk n input) = .ret (some v) s') :
    ∃ a m, Heap.read env (St.init junk n input) = .ret (some a) s' m ∧
      ∀ p q e e', elem v p = some e → elem v q = some e' → ∃ x y r, follow m a p = some x ∧ follow m a q = some y ∧ equals fmt m x y = some r ∧
        (e.isContainer = true → (r = true ↔ p = q ∨ (e'.isContainer = true ∧ e.kids = [] ∧ e'.kids = []))) ∧
        (e.isEntry = true → (r = true ↔ p = q)) ∧
        (e.isContainer = false → e.isEntry = false → (r = true ↔ elemText fmt e = elemText fmt e')) := by
  obtain ⟨a, m, as, h1, h2, h3, _⟩ := heap_stored h
  refine ⟨a, m, h1, fun p q e e' hp hq => ?_⟩
  obtain ⟨x, b, par, g1, g2, g3, -, -, -, -⟩ := elem_parent h2 h3 p hp
  obtain ⟨y, b', par', k1, k2, k3, -, -, -, -⟩ := elem_parent h2 h3 q hq
  obtain ⟨body, t, g8, -⟩ := elem_root g2
  obtain ⟨body', t', k8, -⟩ := elem_root k2
  have hkid : ∀ (i : Nat) (z : Addr), (below m x)[i]? = some z → (below m y)[i]? = some z → p = q := by
    intro i z hz hz'
    have e1 : follow m a (p ++ [i]) = some z := by rw [follow_append, g1]; simp [follow, hz]
    have e2 : follow m a (q ++ [i]) = some z := by rw [follow_append, k1]; simp [follow, hz']
    have := follow_inj _ _ (e := .value v) h2 h3 e1 e2
    exact (List.append_inj' this rfl).1
  have hpq : p = q → x = y ∧ e = e' := by
    rintro rfl
    rw [g1, Option.some.injEq] at k1
    unfold elem at hp hq
    rw [hp, Option.some.injEq] at hq
    exact ⟨k1, hq⟩
  obtain ⟨bss, ⟨gl, -, -⟩, -⟩ := elem_kids g2
  obtain ⟨bss', ⟨kl, -, -⟩, -⟩ := elem_kids k2
  have hkids : below m x = below m y → e.isContainer = true → e'.isContainer = true → (p = q ∨ (e'.isContainer = true ∧ e.kids = [] ∧ e'.kids = [])) := by
    intro hb hc hc'
    cases hx : below m x with
    | nil =>
      right
      refine ⟨hc', List.eq_nil_of_length_eq_zero (by rw [← gl, hx]; rfl), List.eq_nil_of_length_eq_zero (by rw [← kl, ← hb, hx]; rfl)⟩
    | cons z l =>
      left
      exact hkid 0 z (by rw [hx]; rfl) (by rw [← hb, hx]; rfl)
  have hcont : e.isContainer = true → Heap.items m x = some (below m x) := fun hc => by rw [items_elem g2, hc]; rfl
  have key : e.isContainer = true → ∃ r, equals fmt m x y = some r ∧ (r = true ↔ e'.isContainer = true ∧ below m x = below m y) := by
    intro hc
    have hbody : (∃ l, body = .arr l ∧ below m x = l) ∨ (∃ o l, body = .obj o l ∧ below m x = l) := by
      have hi := hcont hc
      unfold Heap.items at hi
      rw [g8] at hi
      cases body with
      | arr l => left; exact ⟨l, rfl, by simpa using hi.symm⟩
      | obj o l => right; exact ⟨o, l, rfl, by simpa using hi.symm⟩
      | prim w => simp at hi
      | entry k w => simp at hi
    rw [show equals fmt m x y = (match Heap.items m y with
      | none => some false
      | some l' => some (decide ((below m x).length = l'.length) && ((below m x).zip l').all fun x => decide (x.1 = x.2))) from by
        unfold equals
        rw [g8, k8]
        rcases hbody with ⟨l, rfl, e⟩ | ⟨o, l, rfl, e⟩ <;> (simp only [e]; try rfl)]
    rw [items_elem k2]
    cases hc' : e'.isContainer with
    | false => exact ⟨false, rfl, by simp⟩
    | true =>
      refine ⟨_, rfl, ?_⟩
      rw [zip_all_eq]
      simp
  cases hc : e.isContainer with
  | true =>
    obtain ⟨r, hr1, hr2⟩ := key hc
    refine ⟨x, y, r, g1, k1, hr1, fun _ => ?_, fun he => ?_, fun hf => by simp at hf⟩
    · rw [hr2]
      constructor
      · rintro ⟨hc', hb⟩
        exact hkids hb hc hc'
      · rintro (hpq' | ⟨hc', h0, h0'⟩)
        · obtain ⟨rfl, rfl⟩ := hpq hpq'
          exact ⟨hc, rfl⟩
        · refine ⟨hc', ?_⟩
          rw [List.eq_nil_of_length_eq_zero (l := below m x) (by rw [gl, h0]; rfl), List.eq_nil_of_length_eq_zero (l := below m y) (by rw [kl, h0']; rfl)]
    · cases e with
      | value w => simp [Elem.isEntry] at he
      | entry k w => simp [Elem.isContainer] at hc
  | false =>
    cases e with
    | entry k w =>
      obtain ⟨xv, bv, hxv, -, -⟩ := g2
      have hbx : below m x = [xv] := by simp [below, hxv]
      cases e' with
      | entry k' w' =>
        obtain ⟨yv, bv', hyv, -, -⟩ := k2
        have hby : below m y = [yv] := by simp [below, hyv]
        refine ⟨x, y, decide (k = k') && decide (xv = yv), g1, k1, by simp [equals, hxv, hyv], fun hf => by simp at hf, fun _ => ?_, fun _ hf => by simp [Elem.isEntry] at hf⟩
        simp only [Bool.and_eq_true, decide_eq_true_eq]
        constructor
        · rintro ⟨-, rfl⟩
          exact hkid 0 xv (by rw [hbx]; rfl) (by rw [hby]; rfl)
        · intro hpq'
          obtain ⟨rfl, he⟩ := hpq hpq'
          rw [hxv] at hyv
          simp only [Option.some.injEq, Obj.mk.injEq, Body.entry.injEq] at hyv
          exact hyv.2
      | value w' =>
        refine ⟨x, y, false, g1, k1, ?_, fun hf => by simp at hf, fun _ => ?_, fun _ hf => by simp [Elem.isEntry] at hf⟩
        · simp only [equals, hxv, k8]
          cases body' with
          | entry k' u =>
            exfalso
            cases w' with
            | arr xs => obtain ⟨l, bs, h', _⟩ := k2; rw [k8] at h'; simp at h'
            | obj es => obtain ⟨o, l, bs, h', _⟩ := k2; rw [k8] at h'; simp at h'
            | _ => have h' := k2.1; rw [k8] at h'; simp at h'
          | _ => rfl
        · simp only [Bool.false_eq_true, false_iff]
          intro hpq'
          have := (hpq hpq').2
          simp at this
    | value w =>
      have hbody : body = .prim w := by
        cases w with
        | arr xs => simp [Elem.isContainer] at hc
        | obj es => simp [Elem.isContainer] at hc
        | _ => have h' := g2.1; rw [g8] at h'; simpa using h'
      have htext : text fmt body' = elemText fmt e' := by
        cases e' with
        | entry k' w' =>
          obtain ⟨yv, bv', hyv, -, -⟩ := k2
          rw [k8] at hyv
          simp only [Option.some.injEq, Obj.mk.injEq] at hyv
          rw [hyv.2]; rfl
        | value w' =>
          cases w' with
          | arr xs => obtain ⟨l, bs, h', _⟩ := k2; rw [k8] at h'; simp only [Option.some.injEq, Obj.mk.injEq] at h'; rw [h'.2]; rfl
          | obj es => obtain ⟨o, l, bs, h', _⟩ := k2; rw [k8] at h'; simp only [Option.some.injEq, Obj.mk.injEq] at h'; rw [h'.2]; rfl
          | _ => have h' := k2.1; rw [k8] at h'; simp only [Option.some.injEq, Obj.mk.injEq] at h'; rw [h'.2]; rfl
      refine ⟨x, y, decide (w.stringify fmt = text fmt body'), g1, k1, by simp [equals, g8, k8, hbody], fun hf => by simp at hf, fun hf => by simp [Elem.isEntry] at hf, fun _ _ => ?_⟩
      rw [decide_eq_true_eq, htext]
      rfl

end Verif.Props
