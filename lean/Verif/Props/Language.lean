import Verif.Props.Main
import Verif.Props.Double
/-! # C92: the output does not depend on the language settings -/
namespace Verif.Props
open Verif.Model Verif.Model.Main Verif.Model.Output Verif.Spec

mutual
/-- The document has no number with a decimal point. -/
def NoFraction : Json → Prop
  | .arr xs => NoFractionItems xs
  | .obj es => NoFractionEntries es
  | .dbl _ => False
  | .str _ => True
  | .bool _ => True
  | .null => True
  | .int _ => True
  | .long _ => True
def NoFractionItems : List Json → Prop
  | [] => True
  | x :: xs => NoFraction x ∧ NoFractionItems xs
def NoFractionEntries : List (Bytes × Json) → Prop
  | [] => True
  | (_, v) :: es => NoFraction v ∧ NoFractionEntries es
end

theorem stringify_plain (f g : Bytes → Bytes) (v : Json) (h : NoFraction v) : v.stringify f = v.stringify g := by
  cases v with
  | dbl s => exact h.elim
  | _ => rfl

theorem writePrimitive_plain (f g : Bytes → Bytes) (c : Bool) (n : Nat) (p : Bool) (v : Json) (h : NoFraction v) :
    writePrimitive f c n p v = writePrimitive g c n p v := by
  cases v with
  | dbl s => exact h.elim
  | _ => rfl

mutual
theorem write_plain (f g : Bytes → Bytes) (c : Bool) : ∀ (v : Json) (n : Nat) (p : Bool), NoFraction v → write f c n p v = write g c n p v
  | .arr xs, n, p, h => by rw [write, write, writeItems_plain f g c xs (n + 1) true h]
  | .obj es, n, p, h => by rw [write, write, writeEntries_plain f g c es (n + 1) true h]
  | .str _, n, p, h => rfl
  | .bool _, n, p, h => rfl
  | .null, n, p, h => rfl
  | .int _, n, p, h => rfl
  | .long _, n, p, h => rfl
  | .dbl _, n, p, h => h.elim
theorem writeItems_plain (f g : Bytes → Bytes) (c : Bool) : ∀ (xs : List Json) (n : Nat) (p : Bool), NoFractionItems xs → writeItems f c n p xs = writeItems g c n p xs
  | [], _, _, _ => rfl
  | x :: xs, n, p, h => by rw [writeItems, writeItems, write_plain f g c x n _ h.1, writeItems_plain f g c xs n _ h.2]
theorem writeEntries_plain (f g : Bytes → Bytes) (c : Bool) : ∀ (es : List (Bytes × Json)) (n : Nat) (p : Bool), NoFractionEntries es →
    writeEntries f c n p es = writeEntries g c n p es
  | [], _, _, _ => rfl
  | (k, v) :: es, n, p, h => by
    rw [writeEntries, writeEntries, write_plain f g c v n _ h.1, writeEntries_plain f g c es n _ h.2, stringify_plain f g v h.1]
end

/-- The value of an element has no fraction. -/
def PlainElem : Elem → Prop
  | .value v => NoFraction v
  | .entry _ v => NoFraction v

theorem plain_items : ∀ (xs : List Json), NoFractionItems xs → ∀ x ∈ xs, NoFraction x
  | [], _, _, hx => by cases hx
  | y :: ys, h, x, hx => by
    rcases List.mem_cons.mp hx with rfl | hx
    · exact h.1
    · exact plain_items ys h.2 x hx

theorem plain_entries : ∀ (es : List (Bytes × Json)), NoFractionEntries es → ∀ e ∈ es, NoFraction e.2
  | [], _, _, hx => by cases hx
  | (k, v) :: ys, h, x, hx => by
    rcases List.mem_cons.mp hx with rfl | hx
    · exact h.1
    · exact plain_entries ys h.2 x hx

theorem plain_kids (e : Elem) (h : PlainElem e) : ∀ k ∈ e.kids, PlainElem k := by
  intro k hk
  cases e with
  | value v =>
    cases v with
    | arr xs =>
      obtain ⟨x, hx, rfl⟩ := List.mem_map.mp hk
      exact plain_items xs h x hx
    | obj es =>
      obtain ⟨x, hx, rfl⟩ := List.mem_map.mp hk
      exact plain_entries es h x hx
    | _ => cases hk
  | entry k' v =>
    simp only [Elem.kids, List.mem_singleton] at hk
    subst hk
    exact h

theorem row_plain (f g : Nat → Elem → Option Diff.Table) : ∀ (ys : List Elem) (j : Nat), (∀ j, ∀ y ∈ ys, f j y = g j y) → Diff.row f j ys = Diff.row g j ys
  | [], _, _ => rfl
  | y :: ys, j, h => by
    rw [Diff.row, Diff.row, h j y (by simp), row_plain f g ys (j + 1) fun j y hy => h j y (by simp [hy])]

theorem primitive_plain (f g : Bytes → Bytes) (a : Json) (pa : Path) (b : Elem) (pb : Path) (ha : NoFraction a) (hb : PlainElem b) :
    Diff.primitive f a pa b pb = Diff.primitive g a pa b pb := by
  cases b with
  | entry _ _ => rfl
  | value v => rw [Diff.primitive, Diff.primitive, stringify_plain f g a ha, stringify_plain f g v hb]

mutual
theorem build_plain (f g : Bytes → Bytes) : ∀ (a : Json) (pa : Path) (b : Elem) (pb : Path), NoFraction a → PlainElem b →
    Diff.build f a pa b pb = Diff.build g a pa b pb
  | .arr xs, pa, b, pb, ha, hb => by rw [Diff.build, Diff.build, buildItems_plain f g xs pa 0 b.kids pb ha (plain_kids b hb)]
  | .obj es, pa, b, pb, ha, hb => by rw [Diff.build, Diff.build, buildEntries_plain f g es pa 0 b.kids pb ha (plain_kids b hb)]
  | .str s, pa, b, pb, ha, hb => congrArg some (primitive_plain f g (.str s) pa b pb ha hb)
  | .bool s, pa, b, pb, ha, hb => congrArg some (primitive_plain f g (.bool s) pa b pb ha hb)
  | .null, pa, b, pb, ha, hb => congrArg some (primitive_plain f g (.null) pa b pb ha hb)
  | .int s, pa, b, pb, ha, hb => congrArg some (primitive_plain f g (.int s) pa b pb ha hb)
  | .long s, pa, b, pb, ha, hb => congrArg some (primitive_plain f g (.long s) pa b pb ha hb)
  | .dbl s, pa, b, pb, ha, hb => ha.elim
theorem buildItems_plain (f g : Bytes → Bytes) : ∀ (xs : List Json) (pa : Path) (i : Nat) (ys : List Elem) (pb : Path), NoFractionItems xs →
    (∀ y ∈ ys, PlainElem y) → Diff.buildItems f xs pa i ys pb = Diff.buildItems g xs pa i ys pb
  | [], _, _, _, _, _, _ => rfl
  | x :: xs, pa, i, ys, pb, hx, hy => by
    rw [Diff.buildItems, Diff.buildItems, buildItems_plain f g xs pa (i + 1) ys pb hx.2 hy,
      row_plain (fun j y => Diff.build f x (pa ++ [i]) y (pb ++ [j])) (fun j y => Diff.build g x (pa ++ [i]) y (pb ++ [j])) ys 0
        fun j y hm => build_plain f g x _ y _ hx.1 (hy y hm)]
theorem buildEntries_plain (f g : Bytes → Bytes) : ∀ (es : List (Bytes × Json)) (pa : Path) (i : Nat) (ys : List Elem) (pb : Path), NoFractionEntries es →
    (∀ y ∈ ys, PlainElem y) → Diff.buildEntries f es pa i ys pb = Diff.buildEntries g es pa i ys pb
  | [], _, _, _, _, _, _ => rfl
  | (k, v) :: es, pa, i, ys, pb, hx, hy => by
    rw [Diff.buildEntries, Diff.buildEntries, buildEntries_plain f g es pa (i + 1) ys pb hx.2 hy,
      row_plain (fun j y => Diff.entryWith k (pa ++ [i]) y (pb ++ [j]) (fun v' => Diff.build f v (pa ++ [i, 0]) (.value v') (pb ++ [j, 0])))
        (fun j y => Diff.entryWith k (pa ++ [i]) y (pb ++ [j]) (fun v' => Diff.build g v (pa ++ [i, 0]) (.value v') (pb ++ [j, 0]))) ys 0
        fun j y hm => by
          cases y with
          | value v' => simp only [Diff.entryWith]
          | entry k' v' =>
            simp only [Diff.entryWith]
            rw [build_plain f g v _ (.value v') _ hx.1 (show PlainElem (.entry k' v') from hy _ hm)]]
end

/-- The same world with other language settings. -/
def World.inLanguage (w : World) (point : Bytes) : World := { w with point := point }

/-- **C92 is false as stated**: where the decimal point is a comma, `[1.5]` is printed as `[1,000000]`, an array with two numbers. -/
theorem C92_language_false (w : World) (ht : w.tty = false) :
    (Main.main (World.inLanguage w b!".") [b!"--compress", b!"--", b!"[1.5]"]).1.out = b!"[1.500000]" ∧
    (Main.main (World.inLanguage w b!",") [b!"--compress", b!"--", b!"[1.5]"]).1.out = b!"[1,000000]" := by
  obtain ⟨a, b, c, d, e, f, g, h⟩ := w
  simp only at ht
  subst ht
  have key : ∀ p, (Main.main (World.inLanguage ⟨a, b, false, d, e, f, g, h⟩ p) [b!"--compress", b!"--", b!"[1.5]"]).1.out =
      [] ++ display (Double.fmt p) true (.arr [.dbl b!"1.5"]) := by
    intro p
    generalize hq : World.inLanguage ⟨a, b, false, d, e, f, g, h⟩ p = q
    have hf : ∀ s : Params.Settings, s.ignoreUnicode = false → q.fmt s = Double.fmt p := by
      intro s hs
      rw [← hq]
      unfold World.fmt Double.pointInUse
      rw [hs]
      rfl
    have ht : q.tty = false := by rw [← hq]; rfl
    obtain ⟨s, h1, h2, h3, h4, h5, h6⟩ : ∃ s, Params.read (fun f => (q.files f).isSome) [b!"--compress", b!"--", b!"[1.5]"] = .go s ∧ s.ignoreUnicode = false ∧
        s.diffCmd = none ∧ s.diffMode = false ∧ s.compressMode = true ∧
        runStdout q s (Params.getInputs s) [] {} = ({ out := [] ++ display (q.fmt s) s.compressMode (.arr [.dbl b!"1.5"]) }, .returned) :=
      ⟨_, rfl, rfl, rfl, rfl, rfl, rfl⟩
    unfold Main.main
    rw [h1]
    simp only
    unfold choose
    rw [h3]
    simp only [h4, h5, h6, hf s h2]
    simp
  rw [key, key]
  constructor <;> decide +kernel

/-- All documents read have no number with a decimal point. -/
def PlainInputs (w : World) (s : Params.Settings) : Prop := ∀ i ∈ Params.getInputs s, ∀ v ws, Holds w s i v ws → NoFraction v

theorem readOneFile_point (w : World) (p : Bytes) (s : Params.Settings) (i : Bytes × Params.Source) (f : Effects) :
    readOneFile (World.inLanguage w p) s i f = readOneFile w s i f := rfl

theorem readOneFile_doc {w : World} {s : Params.Settings} {i : Bytes × Params.Source} {f f' : Effects} {v : Json} {ws : List (Bytes × Exn)}
    (h : readOneFile w s i f = (f', .doc v ws)) : ∃ ws', Holds w s i v ws' := by
  unfold readOneFile at h
  cases hr : readFile w s i with
  | ret o st =>
    rw [hr] at h
    cases o with
    | none => simp at h
    | some v' =>
      simp only [Prod.mk.injEq, Got.doc.injEq] at h
      obtain ⟨-, rfl, -⟩ := h
      unfold readFile at hr
      rw [contents_text] at hr
      exact ⟨_, st, hr, rfl⟩
  | throw e =>
    rw [hr] at h
    simp only at h
    split at h <;> simp at h
  | uncaught u => rw [hr] at h; simp at h
  | ub u => rw [hr] at h; simp at h
  | fuel => rw [hr] at h; simp at h

/-- The language does not matter for the document: it is not used, or there are no fractions. -/
def Indifferent (w : World) (p : Bytes) (s : Params.Settings) (v : Json) : Prop :=
  (World.inLanguage w p).fmt s = w.fmt s ∨ NoFraction v

theorem indifferent_display {w : World} {p : Bytes} {s : Params.Settings} {v : Json} (h : Indifferent w p s v) (c : Bool) :
    display ((World.inLanguage w p).fmt s) c v = display (w.fmt s) c v := by
  rcases h with h | h
  · rw [h]
  · exact write_plain _ _ _ v _ _ h

theorem indifferent_diff {w : World} {p : Bytes} {s : Params.Settings} {a b : Json} (ha : Indifferent w p s a) (hb : Indifferent w p s b) :
    Diff.diff ((World.inLanguage w p).fmt s) a b = Diff.diff (w.fmt s) a b := by
  rcases ha with h | ha
  · rw [h]
  · rcases hb with h | hb
    · rw [h]
    · exact build_plain _ _ _ _ _ _ ha (show PlainElem (.value b) from hb)

theorem runStdout_point (w : World) (p : Bytes) (s : Params.Settings) : ∀ (is : List (Bytes × Params.Source)) (warns : List (Bytes × Exn)) (f : Effects),
    (∀ i ∈ is, ∀ v ws, Holds w s i v ws → Indifferent w p s v) → runStdout (World.inLanguage w p) s is warns f = runStdout w s is warns f
  | [], _, _, _ => rfl
  | i :: is, warns, f, h => by
    rw [runStdout, runStdout, readOneFile_point]
    rcases hr : readOneFile w s i f with ⟨f', g⟩
    cases g with
    | doc v new =>
      obtain ⟨ws, hv⟩ := readOneFile_doc hr
      have hp := h i (by simp) v ws hv
      simp only
      rw [runStdout_point w p s is _ _ fun j hj => h j (by simp [hj])]
      rw [show display ((World.inLanguage w p).fmt s) s.compressMode v = display (w.fmt s) s.compressMode v from indifferent_display hp _]
    | none => rfl
    | crash e => rfl

theorem run_point (w : World) (p : Bytes) (s : Params.Settings) : ∀ (is : List (Bytes × Params.Source)) (warns : List (Bytes × Exn)) (f : Effects),
    run (World.inLanguage w p) s is warns f = run w s is warns f
  | [], _, _ => rfl
  | i :: is, warns, f => by
    rw [run, run, readOneFile_point]
    rcases hr : readOneFile w s i f with ⟨f', g⟩
    cases g with
    | doc v new => simp only; rw [run_point w p s is]
    | none => rfl
    | crash e => rfl

theorem splitView_point (w : World) (p : Bytes) (s : Params.Settings) (docs : List (Bytes × Json)) (f : Effects) (h : ∀ d ∈ docs, Indifferent w p s d.2) :
    splitView (World.inLanguage w p) s docs f = splitView w s docs f := by
  unfold splitView
  match docs, h with
  | [], _ => rfl
  | [_], _ => rfl
  | [a, b], h =>
    simp only
    rw [show Diff.diff ((World.inLanguage w p).fmt s) a.2 b.2 = Diff.diff (w.fmt s) a.2 b.2 from
      indifferent_diff (h a (by simp)) (h b (by simp))]
  | [_, _, _], _ => rfl
  | _ :: _ :: _ :: _ :: _, _ => rfl

theorem runDiff_point (w : World) (p : Bytes) (s : Params.Settings) : ∀ (is : List (Bytes × Params.Source)) (docs : List (Bytes × Json)) (warns : List (Bytes × Exn))
    (f : Effects), (∀ i ∈ is, ∀ v ws, Holds w s i v ws → Indifferent w p s v) → (∀ d ∈ docs, Indifferent w p s d.2) →
    runDiff (World.inLanguage w p) s is docs warns f = runDiff w s is docs warns f
  | [], docs, warns, f, _, hd => by rw [runDiff, runDiff, splitView_point w p s docs f hd]
  | i :: is, docs, warns, f, h, hd => by
    rw [runDiff, runDiff, readOneFile_point]
    rcases hr : readOneFile w s i f with ⟨f', g⟩
    cases g with
    | doc v new =>
      obtain ⟨ws, hv⟩ := readOneFile_doc hr
      have hp := h i (by simp) v ws hv
      simp only
      refine runDiff_point w p s is _ _ _ (fun j hj => h j (by simp [hj])) fun d hm => ?_
      rcases List.mem_append.mp hm with hm | hm
      · exact hd d hm
      · rw [List.mem_singleton.mp hm]; exact hp
    | none => rfl
    | crash e => rfl

theorem external_point (w : World) (p : Bytes) (s : Params.Settings) (cmd : List Bytes) : ∀ (is : List (Bytes × Params.Source)) (files : List Bytes)
    (warns : List (Bytes × Exn)) (f : Effects), (∀ i ∈ is, ∀ v ws, Holds w s i v ws → Indifferent w p s v) →
    doRunExternalDiff (World.inLanguage w p) s cmd is files warns f = doRunExternalDiff w s cmd is files warns f
  | [], _, _, _, _ => rfl
  | i :: is, files, warns, f, h => by
    rw [doRunExternalDiff, doRunExternalDiff, readOneFile_point]
    rcases hr : readOneFile w s i f with ⟨f', g⟩
    cases g with
    | doc v new =>
      obtain ⟨ws, hv⟩ := readOneFile_doc hr
      have hp := h i (by simp) v ws hv
      simp only
      rw [external_point w p s cmd is _ _ _ fun j hj => h j (by simp [hj])]
      rw [show display ((World.inLanguage w p).fmt s) s.compressMode v = display (w.fmt s) s.compressMode v from indifferent_display hp _]
      rfl
    | none => rfl
    | crash e => rfl

theorem choose_point (w : World) (p : Bytes) (s : Params.Settings) (h : ∀ i ∈ Params.getInputs s, ∀ v ws, Holds w s i v ws → Indifferent w p s v) (f : Effects) :
    choose (World.inLanguage w p) s f = choose w s f := by
  unfold choose
  cases s.diffCmd with
  | some cmd => simp only [runExternalDiff]; rw [external_point w p s cmd _ _ _ _ h]
  | none =>
    simp only
    rw [runDiff_point w p s _ _ _ _ h (by simp), run_point, runStdout_point w p s _ _ _ h]
    rfl

/-- **C92, the part that holds.** The run of the program does not depend on the decimal point of the language if `--ascii` is given, or if no number with
a decimal point is read. Missing: all other runs. -/
theorem C92_language_partial (w : World) (args : List Bytes) (s : Params.Settings) (h : Params.read (fun f => (w.files f).isSome) args = .go s)
    (hs : s.ignoreUnicode = true ∨ PlainInputs w s) (p p' : Bytes) : Main.main (World.inLanguage w p) args = Main.main (World.inLanguage w p') args := by
  have key : ∀ q, Main.main (World.inLanguage w q) args = Main.main w args := by
    intro q
    have h' : Params.read (fun f => ((World.inLanguage w q).files f).isSome) args = .go s := h
    unfold Main.main
    rw [h, h']
    simp only
    rw [choose_point w q s]
    intro i hi v ws hv
    rcases hs with hs | hs
    · left
      unfold World.fmt Double.pointInUse
      rw [hs]
      rfl
    · exact .inr (hs i hi v ws hv)
  rw [key p, key p']

/-- The example `a` has no fractions, and the command line is accepted. -/
example : ∃ s, Params.read (fun f => (exampleWorld.files f).isSome) [b!"-W", b!"a"] = .go s ∧ s.ignoreUnicode = false ∧ PlainInputs exampleWorld s := by
  refine ⟨_, rfl, rfl, ?_⟩
  intro i hi v ws hv
  obtain ⟨st, h1, -⟩ := hv
  change i ∈ [((b!"a" : Bytes), Params.Source.file b!"a")] at hi
  rw [List.mem_singleton.mp hi] at h1
  have h2 : ∃ st, Model.read (envOf false false true exampleWorld.surr) (St.init (List.replicate 45 0) 0 b!"[1]") = .ret (some (.arr [.int 1])) st := ⟨_, rfl⟩
  obtain ⟨st', h2⟩ := h2
  have h3 := h1.symm.trans h2
  simp only [Out.ret.injEq, Option.some.injEq] at h3
  rw [h3.1]
  exact ⟨trivial, trivial⟩

end Verif.Props
