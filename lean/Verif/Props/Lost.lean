import Verif.Lemmas.HeapStranded
import Verif.Props.Heap
/-! # C99, exactly: what stays in memory after a read and the destructor -/
namespace Verif.Props
open Verif.Model Verif.Spec Verif.Spec.Heap Verif.Lemmas Verif.Lemmas.Heap

theorem sorted_same {l l' : List Nat} (h : l.Pairwise (· < ·)) (h' : l'.Pairwise (· < ·)) (hm : ∀ x, x ∈ l ↔ x ∈ l') : l = l' := by
  induction l generalizing l' with
  | nil =>
    cases l' with
    | nil => rfl
    | cons b l' => exact absurd ((hm b).mpr (by simp)) (by simp)
  | cons a l ih =>
    cases l' with
    | nil => exact absurd ((hm a).mp (by simp)) (by simp)
    | cons b l' =>
      rw [List.pairwise_cons] at h h'
      have e : a = b := by
        rcases List.mem_cons.mp ((hm a).mp (by simp)) with e | e
        · exact e
        · rcases List.mem_cons.mp ((hm b).mpr (by simp)) with e' | e'
          · exact e'.symm
          · have h1 := h.1 b e'
            have h2 := h'.1 a e
            omega
      subst e
      refine congrArg _ (ih h.2 h'.2 (fun x => ?_))
      constructor
      · intro hx
        rcases List.mem_cons.mp ((hm x).mp (by simp [hx])) with e | e
        · have := h.1 x hx; omega
        · exact e
      · intro hx
        rcases List.mem_cons.mp ((hm x).mpr (by simp [hx])) with e | e
        · have := h'.1 x hx; omega
        · exact e

/-- What is left is one list. -/
theorem left_unique {m : Model.Heap.Mem} {L L' : List Json} (h : Lost.Left m L) (h' : Lost.Left m L') : L = L' := by
  obtain ⟨as, h1, h2, h3⟩ := h
  obtain ⟨as', h1', h2', h3'⟩ := h'
  have := sorted_same h1 h1' (fun x => by rw [← h2, ← h2'])
  subst this
  rw [h3] at h3'
  exact (List.map_inj_right (fun a b e => by injection e with e; injection e)).mp h3'

/-- **C99, exactly, for a read that delivers a document.** When the consumer has been destroyed, what is left in memory is exactly the values that stand in the place of the brace that ends an
object, one object each: the reader delivers a document and `lost` is left if and only if the productions of `Spec.Lost` derive the text with `lost`. So nothing is left if and only if no object
ends that way. -/
theorem C99_exactly_partial (strict ascii sort : Bool) (surr : Nat → Option Bytes) (junk : List Byte) (n : Nat) (input : Bytes) (lost : List Json) :
    (∃ a s m m', Model.Heap.read (envOf strict ascii sort surr) (St.init junk n input) = .ret (some a) s m ∧ Model.Heap.close (some a) m = .done m' ∧ Lost.Left m' lost) ↔
      ∃ w t rest v, input = w ++ t ++ rest ∧ Blank w ∧ Lost.Value ⟨strict, ascii, sort, surr⟩ t rest v lost := by
  -- a derivation tells what is left
  have key : ∀ w t rest v L, input = w ++ t ++ rest → Blank w → Lost.Value ⟨strict, ascii, sort, surr⟩ t rest v L →
      ∃ a s m m', Model.Heap.read (envOf strict ascii sort surr) (St.init junk n input) = .ret (some a) s m ∧ Model.Heap.close (some a) m = .done m' ∧ Lost.Left m' L := by
    rintro w t rest v L rfl hw hv
    have hnf := ((C99_memory_partial (envOf strict ascii sort surr) junk n).1 (w ++ t ++ rest)).2.1
    have hl := leaves _ hv w (LHist.init junk n) [] (2 * (w ++ t ++ rest).length + 3) none none Model.Heap.Mem.empty hw fresh_empty
    have hrd : Model.Heap.read (envOf strict ascii sort surr) (St.init junk n (w ++ t ++ rest)) =
      Model.Heap.readNext (envM ⟨strict, ascii, sort, surr⟩) (2 * (w ++ t ++ rest).length + 3 + 1) none ⟨w ++ t ++ rest, true, LHist.init junk n, []⟩ Model.Heap.Mem.empty := rfl
    rcases hl with h | ⟨a, s, m, p0, h, -, -, hfr, as, hmade, ls, k1, k2, k3, k4⟩
    · rw [hrd, readNext_hitem.1 h] at hnf
      exact absurd rfl hnf
    · refine ⟨a, s, m, _, by rw [hrd]; exact readNext_hitem.2 _ _ _ h,
        delete_stores _ hmade.stores hmade.nodup (nodup_length hmade.nodup (fun x hx => hfr.fresh.lt (stores_live _ hmade.stores x hx))), ls, k1, fun x => ?_, ?_⟩
      · rw [without_get]
        split
        · rename_i hx
          exact ⟨fun h => absurd rfl h, fun h => absurd hx (k2 x h).2⟩
        · rename_i hx
          exact ⟨fun h => (k4 x (Nat.zero_le _) h).resolve_left hx, fun h => stays_live k3 x h⟩
      · rw [← k3]
        refine List.map_congr_left (fun x hx => ?_)
        rw [without_get, if_neg (k2 x hx).2]
  constructor
  · rintro ⟨a, s, m, m', h1, h2, h3⟩
    have hag := heap_read (envOf strict ascii sort surr) (St.init junk n input)
    rw [h1] at hag
    cases hr : Model.read (envOf strict ascii sort surr) (St.init junk n input) with
    | ret v s2 =>
      rw [hr] at hag
      cases v with
      | none => exact absurd hag.2.2 (by simp)
      | some v =>
        obtain ⟨w, t, hi, hw, hv⟩ := (accepted_iff ⟨strict, ascii, sort, surr⟩ junk n input v s2.rest _).mp ⟨s2, hr, rfl, rfl⟩
        obtain ⟨L, hL⟩ := lost_of_value hv
        obtain ⟨a', s', m2, m2', g1, g2, g3⟩ := key w t s2.rest v L hi hw hL
        rw [h1] at g1
        simp only [Model.Heap.HOut.ret.injEq, Option.some.injEq] at g1
        obtain ⟨rfl, rfl, rfl⟩ := g1
        rw [h2] at g2
        simp only [Model.Heap.Del.done.injEq] at g2
        subst g2
        rw [left_unique h3 g3]
        exact ⟨w, t, s2.rest, v, hi, hw, hL⟩
    | fuel =>
      have := read_post (envOf strict ascii sort surr) _ (init_exhausted junk n input)
      rw [hr] at this
      exact absurd this (by simp [Out.Post])
    | _ => rw [hr] at hag; exact absurd hag (by simp [Agrees])
  · rintro ⟨w, t, rest, v, hi, hw, hv⟩
    exact key w t rest v lost hi hw hv

/-- `[{"a":{"b":1 true,"a":2 "x"]`, relaxed: the inner object is ended by `true` and then destroyed, for its key is repeated; the outer one is ended by `"x"`. Two values are left. -/
example : ∃ a s m m', Model.Heap.read (envOf false false true) (St.init [] 0 b!"[{\"a\":{\"b\":1 true,\"a\":2 \"x\"]") = .ret (some a) s m ∧ Model.Heap.close (some a) m = .done m' ∧
    Lost.Left m' [.bool true, .str b!"x"] := by
  refine (C99_exactly_partial false false true (fun _ => none) [] 0 _ _).mpr ⟨[], b!"[{\"a\":{\"b\":1 true,\"a\":2 \"x\"]", [], .arr [.obj [(b!"a", .int 2)]], rfl, by simp [Blank], ?_⟩
  have blank : Blank b!" " := by simp [Blank]
  have noBlank : Blank [] := by simp [Blank]
  have key : ∀ c rest, c ≠ 34 → c ≠ 92 → Accepted.Prim ⟨false, false, true, fun _ => none⟩ [34, c, 34] rest (.str [c]) [] := fun c rest h1 h2 => .str (.raw h1 h2 .nil)
  have chars : ∀ c, c ≠ 34 → c ≠ 92 → Accepted.Chars ⟨false, false, true, fun _ => none⟩ [c] [c] [] := fun c h1 h2 => .raw h1 h2 .nil
  have one : Lost.Value ⟨false, false, true, fun _ => none⟩ b!"1" b!" true,\"a\":2 \"x\"]" (.int 1) [] :=
    .prim (.int (neg := false) (ds := b!"1") ⟨by decide, by decide⟩ (by unfold FitsLong; decide) (by intro c r e; cases e; decide))
  have two : Lost.Value ⟨false, false, true, fun _ => none⟩ b!"2" b!" \"x\"]" (.int 2) [] :=
    .prim (.int (neg := false) (ds := b!"2") ⟨by decide, by decide⟩ (by unfold FitsLong; decide) (by intro c r e; cases e; decide))
  have yes : Accepted.Prim ⟨false, false, true, fun _ => none⟩ b!"true" b!",\"a\":2 \"x\"]" (.bool true) [] := .yes .exact (by intro c r e; cases e; decide)
  have inner := Lost.Members.stray (seen := []) (w1 := []) (w2 := []) (w3 := []) (t := b!"1") (w4 := b!" ") (k := b!"b") noBlank (chars _ (by decide) (by decide)) noBlank (by simp) noBlank one blank yes
  have last := Lost.Members.stray (seen := [b!"a"]) (w1 := []) (w2 := []) (w3 := []) (t := b!"2") (w4 := b!" ") (k := b!"a") noBlank (chars _ (by decide) (by decide)) noBlank (by simp) noBlank two
    blank (key 120 b!"]" (by decide) (by decide))
  have all := Lost.Members.more (seen := []) (w1 := []) (w2 := []) (w3 := []) (w4 := []) (k := b!"a") (c := c%',') noBlank (chars _ (by decide) (by decide)) noBlank (by simp) noBlank (.obj inner)
    noBlank (by decide) last
  have arr := Lost.Items.last (w1 := []) (w2 := []) (rest := []) noBlank (.obj all) noBlank
  have ha : Accepted.arranged ⟨false, false, true, fun _ => none⟩ [(b!"a", .obj (Accepted.arranged ⟨false, false, true, fun _ => none⟩ [(b!"b", .int 1)])), (b!"a", .int 2)] = [(b!"a", .int 2)] := by
    simp [Accepted.arranged, lastWins, sortByKey]
  have whole := Lost.Value.arr arr
  rw [ha] at whole
  exact whole

/-! ## After an error -/

theorem remains_of_rem {m : Model.Heap.Mem} {F : List Json} (h : Rem 0 m F) : Stranded.Remains m F := by
  obtain ⟨as, h1, h2, -, h4⟩ := h
  exact ⟨as, h1, h2, fun x => ⟨h4 x (Nat.zero_le _), lies_live F h2 x⟩⟩

/-- A derivation tells how the reader ends and what is in memory then. -/
theorem read_strands (M : Accepted.Mode) (junk : List Byte) (n : Nat) {input : Bytes} {r : Refused.Reason} {F : List Json} (h : Stranded.Value M input r F) :
    ∃ m, Halts (Model.Heap.read (envM M) (St.init junk n input)) r m ∧ Stranded.Remains m F := by
  have hnf := ((C99_memory_partial (envM M) junk n).1 input).2.1
  have hs := (strands M h (LHist.init junk n) [] (2 * input.length + 3) none none Model.Heap.Mem.empty fresh_empty).2.1
  have hrd : Model.Heap.read (envM M) (St.init junk n input) =
    Model.Heap.readNext (envM M) (2 * input.length + 3 + 1) none ⟨input, true, LHist.init junk n, []⟩ Model.Heap.Mem.empty := rfl
  rw [← hrd] at hs
  rcases hs with h | ⟨m, h1, h2, h3⟩
  · exact absurd h hnf
  · exact ⟨m, h1, remains_of_rem h3⟩

/-- **C99, exactly, for a read that ends with an error.** Nobody destroys what was made before the error. What is left are exactly the documents that the productions of `Spec.Stranded`
tell: the containers that were not closed with what they held so far, keys without their values, values in wrong places, and the values lost before. (1), (2): every reported error has
such a derivation, and every derivation tells what is in memory, each object once and nothing else. (3), (4): so for the exceptions that nobody catches. (5): the number of these objects
is that of the elements of the documents. -/
theorem C99_errors_partial (strict ascii sort : Bool) (surr : Nat → Option Bytes) (junk : List Byte) (n : Nat) (input : Bytes) :
    (∀ e m, Model.Heap.read (envOf strict ascii sort surr) (St.init junk n input) = .throw e m →
      ∃ left, Stranded.Value ⟨strict, ascii, sort, surr⟩ input (.error e.kind) left ∧ Stranded.Remains m left) ∧
    (∀ k left, Stranded.Value ⟨strict, ascii, sort, surr⟩ input (.error k) left →
      ∃ e m, Model.Heap.read (envOf strict ascii sort surr) (St.init junk n input) = .throw e m ∧ e.kind = k ∧ Stranded.Remains m left) ∧
    (∀ u m, Model.Heap.read (envOf strict ascii sort surr) (St.init junk n input) = .uncaught u m →
      ∃ left, Stranded.Value ⟨strict, ascii, sort, surr⟩ input (.uncaught u) left ∧ Stranded.Remains m left) ∧
    (∀ u left, Stranded.Value ⟨strict, ascii, sort, surr⟩ input (.uncaught u) left →
      ∃ m, Model.Heap.read (envOf strict ascii sort surr) (St.init junk n input) = .uncaught u m ∧ Stranded.Remains m left) ∧
    (∀ m left, Stranded.Remains m left → ∃ as : List Nat, as.Nodup ∧ (∀ x, m.get x ≠ none ↔ x ∈ as) ∧ as.length = (left.map Stranded.size).sum) := by
  have hag := heap_read (envOf strict ascii sort surr) (St.init junk n input)
  have key : ∀ {r F}, Stranded.Value ⟨strict, ascii, sort, surr⟩ input r F →
      ∃ m, Halts (Model.Heap.read (envOf strict ascii sort surr) (St.init junk n input)) r m ∧ Stranded.Remains m F := fun h => read_strands ⟨strict, ascii, sort, surr⟩ junk n h
  have back : ∀ {r}, why (Model.read (envOf strict ascii sort surr) (St.init junk n input)) = some r → r ≠ .undefined .nullChild →
      ∃ F, Stranded.Value ⟨strict, ascii, sort, surr⟩ input r F := fun h hr => described _ ((refused_iff ⟨strict, ascii, sort, surr⟩ junk n input _).mp h) hr
  refine ⟨fun e m h => ?_, fun k F h => ?_, fun u m h => ?_, fun u F h => ?_, fun m F h => ?_⟩
  · rw [h] at hag
    cases hr : Model.read (envOf strict ascii sort surr) (St.init junk n input) with
    | throw e' =>
      rw [hr] at hag
      simp only [Agrees] at hag
      subst hag
      obtain ⟨F, hF⟩ := back (r := .error e'.kind) (by rw [hr]; rfl) (by simp)
      obtain ⟨m', h1, h2⟩ := key hF
      rw [h] at h1
      obtain ⟨-, rfl⟩ := h1
      exact ⟨F, hF, h2⟩
    | fuel =>
      have := read_post (envOf strict ascii sort surr) _ (init_exhausted junk n input)
      rw [hr] at this
      exact absurd this (by simp [Out.Post])
    | _ => rw [hr] at hag; exact absurd hag (by simp [Agrees])
  · obtain ⟨m, h1, h2⟩ := key h
    cases hr : Model.Heap.read (envOf strict ascii sort surr) (St.init junk n input) with
    | throw e m' =>
      rw [hr] at h1
      obtain ⟨e1, rfl⟩ := h1
      exact ⟨e, m', rfl, by simpa using e1.symm, h2⟩
    | uncaught u m' => rw [hr] at h1; exact absurd h1.1 (by simp)
    | ub u => rw [hr] at h1; exact absurd h1 (by simp [Halts])
    | _ => rw [hr] at h1; exact h1.elim
  · rw [h] at hag
    cases hr : Model.read (envOf strict ascii sort surr) (St.init junk n input) with
    | uncaught u' =>
      rw [hr] at hag
      simp only [Agrees] at hag
      subst hag
      obtain ⟨F, hF⟩ := back (r := .uncaught u') (by rw [hr]; rfl) (by simp)
      obtain ⟨m', h1, h2⟩ := key hF
      rw [h] at h1
      obtain ⟨-, rfl⟩ := h1
      exact ⟨F, hF, h2⟩
    | fuel =>
      have := read_post (envOf strict ascii sort surr) _ (init_exhausted junk n input)
      rw [hr] at this
      exact absurd this (by simp [Out.Post])
    | _ => rw [hr] at hag; exact absurd hag (by simp [Agrees])
  · obtain ⟨m, h1, h2⟩ := key h
    cases hr : Model.Heap.read (envOf strict ascii sort surr) (St.init junk n input) with
    | throw e m' => rw [hr] at h1; exact absurd h1.1 (by simp)
    | uncaught u' m' =>
      rw [hr] at h1
      obtain ⟨e1, rfl⟩ := h1
      cases e1
      exact ⟨m', rfl, h2⟩
    | ub u => rw [hr] at h1; exact absurd h1 (by simp [Halts])
    | _ => rw [hr] at h1; exact h1.elim
  · obtain ⟨as, h1, h2, h3⟩ := h
    have sums : ∀ F : List Json, Stranded.size.sizes F = (F.map Stranded.size).sum := by
      intro F
      induction F with
      | nil => rfl
      | cons v F ih => rw [Stranded.size.sizes, ih]; rfl
    exact ⟨as, h1, h3, by rw [lies_size F h2, sums]⟩

/-- `[1,{"a":[],"b":{"c" 2`: a colon is missing. Left are the array `[1]`, the object `{"a":[]}`, the keys `b` and `c`, and the `2`: eight objects. -/
example : ∃ e m, Model.Heap.read (envOf true false true) (St.init [] 0 b!"[1,{\"a\":[],\"b\":{\"c\" 2") = .throw e m ∧ e.kind = .unexpected (c%':') ∧
    Stranded.Remains m [.arr [.int 1], .obj [(b!"a", .arr [])], .str b!"b", .str b!"c", .int 2] ∧
    ∃ as : List Nat, as.Nodup ∧ (∀ x, m.get x ≠ none ↔ x ∈ as) ∧ as.length = 8 := by
  have blank : Blank b!" " := by simp [Blank]
  have noBlank : Blank [] := by simp [Blank]
  let M : Accepted.Mode := ⟨true, false, true, fun _ => none⟩
  have chars : ∀ c, c ≠ 34 → c ≠ 92 → Accepted.Chars M [c] [c] [] := fun c h1 h2 => .raw h1 h2 .nil
  have key : ∀ c, c ≠ 34 → c ≠ 92 → Refused.Key M [34, c, 34] [c] := fun c h1 h2 => ⟨[], [c], [], [], by simp, noBlank, chars c h1 h2, noBlank⟩
  have one : Stranded.Whole M b!"1" b!",{\"a\":[],\"b\":{\"c\" 2" (.int 1) [] := ⟨[], b!"1", rfl, noBlank,
    .prim (.int (neg := false) (ds := b!"1") ⟨by decide, by decide⟩ (by unfold FitsLong; decide) (by intro c r e; cases e; decide))⟩
  have two : Stranded.Stray M b!" 2" (.int 2) := ⟨b!" ", b!"2", [], [], rfl, blank,
    .int (neg := false) (ds := b!"2") ⟨by decide, by decide⟩ (by unfold FitsLong; decide) (by intro c r e; cases e)⟩
  have emp : Stranded.Whole M b!"[]" b!",\"b\":{\"c\" 2" (.arr []) [] := ⟨[], b!"[]", rfl, noBlank, .arr0 (w := []) noBlank⟩
  have inner := Stranded.Members.stray (es := []) (key 99 (by decide) (by decide)) two
  have v := Stranded.Value.object (w := []) noBlank inner
  have mem2 := Stranded.Members.value (es := [(b!"a", .arr [])]) (key 98 (by decide) (by decide)) (fun _ => by decide) v
  have mem1 := Stranded.Members.more (es := []) (w := []) (c := c%',') (key 97 (by decide) (by decide)) (fun _ => by decide) emp noBlank (by decide) mem2
  have obj := Stranded.Value.object (w := []) noBlank mem1
  have it2 := Stranded.Items.item (vs := [.int 1]) obj
  have it1 := Stranded.Items.more (vs := []) (w := []) one noBlank it2
  have arr := Stranded.Value.array (w := []) noBlank it1
  have ha : (Accepted.arranged M [(b!"a", Json.arr [])]).filter (fun e => e.1 ≠ b!"b") = [(b!"a", Json.arr [])] := by
    simp [Accepted.arranged, lastWins, sortByKey, M]
  rw [ha] at arr
  have := C99_errors_partial true false true (fun _ => none) [] 0 b!"[1,{\"a\":[],\"b\":{\"c\" 2"
  obtain ⟨e, m, h1, h2, h3⟩ := this.2.1 _ _ arr
  obtain ⟨as, k1, k2, k3⟩ := this.2.2.2.2 m _ h3
  exact ⟨e, m, h1, h2, h3, as, k1, k2, k3⟩

end Verif.Props
