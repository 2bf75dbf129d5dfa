import Verif.Props.Layout
import Verif.Props.ReaderGrammar
import Verif.Lemmas.Sort
import Verif.Spec.Standard
/-! # C21, C59: the redirected output reads back, and is standard JSON -/
namespace Verif.Props
open Verif.Model Verif.Spec Verif.Lemmas Verif.Model.Output

theorem _root_.Verif.Spec.Space.blank {w : Bytes} (h : Space w) : Blank w := by
  intro c hc
  have := h c hc
  omega

theorem blank_indent (c : Bool) (n : Nat) : Blank (getIndent c n) := by
  unfold getIndent
  split
  · simp [Blank]
  · intro x hx; simp at hx; left; omega

theorem blank_endl (c : Bool) : Blank (endl c) := by cases c <;> simp [endl, Blank]

theorem blank_append {a b : Bytes} (ha : Blank a) (hb : Blank b) : Blank (a ++ b) := by
  intro c hc
  rcases List.mem_append.mp hc with h | h
  · exact ha c h
  · exact hb c h

theorem blank_nil : Blank [] := by simp [Blank]

theorem space_indent (c : Bool) (n : Nat) : Space (getIndent c n) := by
  unfold getIndent
  split
  · simp [Space]
  · intro x hx; simp at hx; left; omega

theorem space_endl (c : Bool) : Space (endl c) := by cases c <;> simp [endl, Space]

theorem space_append {a b : Bytes} (ha : Space a) (hb : Space b) : Space (a ++ b) := by
  intro c hc
  rcases List.mem_append.mp hc with h | h
  · exact ha c h
  · exact hb c h

theorem space_nil : Space [] := by simp [Space]

theorem noControl_quoted {s : Bytes} (h : NoControl s) : NoControl ([34] ++ s ++ [34]) := by
  intro c hc
  simp at hc
  rcases hc with rfl | hc | rfl
  · omega
  · exact h c hc
  · omega

theorem decimal_snoc (ds : Bytes) (d : Byte) : decimal (ds ++ [d]) = decimal ds * 10 + (d - 48) := by
  induction ds with
  | nil => simp [decimal]
  | cons x ds ih =>
    simp only [List.cons_append, decimal, ih, List.length_append, List.length_singleton, Nat.pow_succ]
    rw [Nat.add_mul, Nat.mul_assoc]
    omega

theorem natDigits_decimal (n : Nat) : decimal (natDigits n) = n := by
  induction n using natDigits.induct with
  | case1 n h => rw [natDigits, if_pos h]; simp [decimal]
  | case2 n h ih => rw [natDigits, if_neg h, decimal_snoc, ih]; omega

theorem natDigits_head (n : Nat) : ∀ d r, natDigits n = d :: r → (d = 48 → n = 0) := by
  induction n using natDigits.induct with
  | case1 n h =>
    intro d r h1 h2
    rw [natDigits, if_pos h] at h1
    simp at h1
    omega
  | case2 n h ih =>
    intro d r h1 h2
    rw [natDigits, if_neg h] at h1
    have h3 := natDigits_digit (n / 10)
    cases h4 : natDigits (n / 10) with
    | nil => exact absurd h4 h3.1
    | cons d' r' =>
      rw [h4] at h1
      simp at h1
      have := ih d' r' h4 (by omega)
      omega

/-- `std::to_string` prints no leading zeros. -/
theorem natDigits_noLeadingZero (n : Nat) : NoLeadingZero (natDigits n) := by
  intro d r h
  have h0 := natDigits_head n _ _ h rfl
  subst h0
  rw [natDigits] at h
  simp at h

theorem natDigits_digits (n : Nat) : Digits (natDigits n) := natDigits_digit n

theorem intToString_text (i : Int) : intToString i = intText (decide (i < 0)) (natDigits i.natAbs) ∧
    intValue (decide (i < 0)) (natDigits i.natAbs) = i := by
  unfold intToString intText intValue
  rw [natDigits_decimal]
  by_cases h : i < 0
  · simp [h]; omega
  · simp [h]; omega

theorem frac_standard {t : Bytes} {neg : Bool} {ds fs : Bytes} (hc : NoLeadingZero t ∧ ∀ r, t = 45 :: r → NoLeadingZero r)
    (h : t = intText neg ds ++ b!"." ++ fs) : NoLeadingZero ds := by
  intro d r hd
  subst hd
  subst h
  cases neg
  · exact hc.1 d _ rfl
  · exact hc.2 _ rfl d _ rfl

/-- A printed primitive is a literal. -/
theorem prim_doc (ascii sort : Bool) (fmt : Bytes → Bytes) (v : Json) (hv : v.isContainer = false) (hp : Printable ascii sort fmt v) :
    ∃ d : Doc, d.WF ascii ∧ d.Fits ∧ d.Distinct ascii ∧ d.value ascii sort = reprint fmt v ∧ d.text = quoted fmt v ∧ (Clean fmt v → d.Standard) := by
  cases v with
  | arr _ => simp [Json.isContainer] at hv
  | obj _ => simp [Json.isContainer] at hv
  | str s =>
    obtain ⟨items, h1, h2, h3⟩ := hp
    exact ⟨.str items, h1, trivial, trivial, by simp [Doc.value, reprint, h3], by simp [Doc.text, strText, quoted, h2],
      fun hc => by show NoControl (strText items); rw [strText, h2]; exact noControl_quoted hc⟩
  | bool b =>
    cases b
    · exact ⟨.false, trivial, trivial, trivial, by simp [Doc.value, reprint], by simp [Doc.text, quoted, Json.stringify], fun _ => trivial⟩
    · exact ⟨.true, trivial, trivial, trivial, by simp [Doc.value, reprint], by simp [Doc.text, quoted, Json.stringify], fun _ => trivial⟩
  | null => exact ⟨.null, trivial, trivial, trivial, by simp [Doc.value, reprint], by simp [Doc.text, quoted, Json.stringify], fun _ => trivial⟩
  | int i =>
    obtain ⟨h1, h2⟩ := intToString_text i
    refine ⟨.int _ _, natDigits_digits i.natAbs, ?_, trivial, ?_, h1.symm, fun _ => natDigits_noLeadingZero _⟩
    · show FitsLong _; rw [h2]; exact hp.2
    · simp only [Doc.value, h2, reprint]; exact hp.1
  | long i =>
    obtain ⟨h1, h2⟩ := intToString_text i
    refine ⟨.int _ _, natDigits_digits i.natAbs, ?_, trivial, ?_, h1.symm, fun _ => natDigits_noLeadingZero _⟩
    · show FitsLong _; rw [h2]; exact hp.2
    · simp only [Doc.value, h2, reprint]; exact hp.1
  | dbl s =>
    obtain ⟨neg, ds, fs, h1, h2, h3⟩ := hp
    exact ⟨.frac neg ds fs, ⟨h1, h2⟩, trivial, trivial, by simp [Doc.value, reprint, h3], by simp [Doc.text, quoted, Json.stringify, h3], fun hc => frac_standard hc h3⟩

theorem write_prim (fmt : Bytes → Bytes) (c : Bool) (n : Nat) (p : Bool) (v : Json) (hv : v.isContainer = false) :
    write fmt c n p v = getIndent c n ++ comma p ++ quoted fmt v ++ endl c := by
  cases v <;> simp [Json.isContainer] at hv <;> simp [write, writePrimitive, quoted, Json.stringify]

theorem keys_reprint (fmt : Bytes → Bytes) (es : List (Bytes × Json)) : (reprintEntries fmt es).map Prod.fst = es.map Prod.fst := by
  induction es with
  | nil => simp [reprintEntries]
  | cons e es ih => obtain ⟨k, v⟩ := e; simp [reprintEntries, ih]

theorem lastWins_nodup : ∀ (es : List (Bytes × Json)), (es.map Prod.fst).Nodup → lastWins es = es
  | [], _ => rfl
  | e :: es, h => by
    simp only [List.map_cons, List.nodup_cons] at h
    have h1 : ¬ (es.any fun e' => decide (e'.1 = e.1)) = true := by
      simp only [List.any_eq_true, decide_eq_true_eq, not_exists, not_and]
      intro x hx hk
      exact h.1 (hk ▸ List.mem_map_of_mem hx)
    rw [lastWins, if_neg h1, lastWins_nodup es h.2]

theorem sortByKey_increasing_self (es : List (Bytes × Json)) (h : es.Pairwise fun a b => a.1 < b.1) : sortByKey es = es :=
  (eq_sortByKey (a := es) (b := es) (List.pairwise_map.mpr h) (List.Perm.refl _)).symm

theorem pairwise_reprint (fmt : Bytes → Bytes) (es : List (Bytes × Json)) (h : es.Pairwise fun a b => a.1 < b.1) :
    (reprintEntries fmt es).Pairwise fun a b => a.1 < b.1 := by
  have h1 : (es.map Prod.fst).Pairwise (· < ·) := List.pairwise_map.mpr h
  rw [← keys_reprint fmt] at h1
  exact List.pairwise_map.mp h1

theorem members_keys (ascii sort : Bool) : ∀ ms : Members, ms.keys ascii = (ms.entries ascii sort).map Prod.fst
  | .one .. => by simp [Members.keys, Members.entries]
  | .more _ _ _ _ _ _ ms => by simp [Members.keys, Members.entries, members_keys ascii sort ms]

theorem value_text (fmt : Bytes → Bytes) (c : Bool) (n : Nat) (v : Json) (t : Bytes) (hnostr : ∀ s, v ≠ .str s)
    (g5 : ∀ p, write fmt c n p v = getIndent c n ++ comma p ++ t ++ endl c) :
    ∃ w3, Space w3 ∧ (if v.isContainer then endl c ++ write fmt c n false v else Json.stringify fmt v ++ endl c) = w3 ++ t ++ endl c := by
  by_cases hv : v.isContainer = true
  · refine ⟨endl c ++ getIndent c n, space_append (space_endl c) (space_indent c n), ?_⟩
    rw [if_pos hv, g5]; simp [comma]
  · refine ⟨[], space_nil, ?_⟩
    have h := g5 false
    rw [write_prim _ _ _ _ _ (by simpa using hv), List.append_cancel_right_eq, List.append_cancel_left_eq] at h
    rw [if_neg hv, ← h]
    cases v <;> simp [quoted]
    exact absurd rfl (hnostr _)

mutual
theorem print_doc (ascii sort : Bool) (fmt : Bytes → Bytes) (c : Bool) : ∀ (v : Json) (n : Nat), Printable ascii sort fmt v →
    ∃ d : Doc, d.WF ascii ∧ d.Fits ∧ d.Distinct ascii ∧ d.value ascii sort = reprint fmt v ∧
      (∀ p, write fmt c n p v = getIndent c n ++ comma p ++ d.text ++ endl c) ∧ (Clean fmt v → d.Standard)
  | .arr [], n, _ => ⟨.arr0 (endl c ++ getIndent c n), blank_append (blank_endl c) (blank_indent c n), trivial, trivial,
      by simp [Doc.value, reprint, reprintItems], fun p => by simp [write, writeItems, Doc.text],
      fun _ => space_append (space_endl c) (space_indent c n)⟩
  | .arr (x :: xs), n, hp => by
    obtain ⟨R, h1, h2⟩ := print_items ascii sort fmt c x xs (n + 1) hp
    obtain ⟨its, g1, g2, g3, g4, g5, g6⟩ := h2 (endl c ++ getIndent c (n + 1)) (getIndent c n) (space_append (space_endl c) (space_indent c _)) (space_indent c n)
    exact ⟨.arr its, g1, g2, g3, by simp [Doc.value, reprint, g4], fun p => by simp [write, h1, Doc.text, g5, comma], fun hc => g6 hc⟩
  | .obj [], n, _ => ⟨.obj0 (endl c ++ getIndent c n), blank_append (blank_endl c) (blank_indent c n), trivial, trivial,
      by simp [Doc.value, reprint, reprintEntries], fun p => by simp [write, writeEntries, Doc.text],
      fun _ => space_append (space_endl c) (space_indent c n)⟩
  | .obj ((k, v) :: es), n, ⟨hn, hs, hp⟩ => by
    obtain ⟨R, h1, h2⟩ := print_entries ascii sort fmt c k v es (n + 1) hp
    obtain ⟨ms, g1, g2, g3, g4, g5, g6⟩ := h2 (endl c ++ getIndent c (n + 1)) (getIndent c n) (space_append (space_endl c) (space_indent c _)) (space_indent c n)
    have hkeys : ms.keys ascii = ((k, v) :: es).map Prod.fst := by rw [members_keys ascii sort, g4, keys_reprint]
    refine ⟨.obj ms, g1, g2, ⟨by rw [hkeys]; exact hn, g3⟩, ?_, fun p => by simp [write, h1, Doc.text, g5, comma], fun hc => g6 hc⟩
    rw [← keys_reprint fmt] at hn
    simp only [Doc.value, g4, lastWins_nodup _ hn, reprint]
    cases sort
    · simp
    · rw [if_pos rfl, sortByKey_increasing_self _ (pairwise_reprint fmt _ (hs rfl))]
  | .str s, n, hp => by
    obtain ⟨d, g1, g2, g3, g4, g5, g6⟩ := prim_doc ascii sort fmt (.str s) rfl hp
    exact ⟨d, g1, g2, g3, g4, fun p => by rw [g5, write_prim _ _ _ _ _ rfl], g6⟩
  | .bool s, n, hp => by
    obtain ⟨d, g1, g2, g3, g4, g5, g6⟩ := prim_doc ascii sort fmt (.bool s) rfl hp
    exact ⟨d, g1, g2, g3, g4, fun p => by rw [g5, write_prim _ _ _ _ _ rfl], g6⟩
  | .null, n, hp => by
    obtain ⟨d, g1, g2, g3, g4, g5, g6⟩ := prim_doc ascii sort fmt .null rfl hp
    exact ⟨d, g1, g2, g3, g4, fun p => by rw [g5, write_prim _ _ _ _ _ rfl], g6⟩
  | .int s, n, hp => by
    obtain ⟨d, g1, g2, g3, g4, g5, g6⟩ := prim_doc ascii sort fmt (.int s) rfl hp
    exact ⟨d, g1, g2, g3, g4, fun p => by rw [g5, write_prim _ _ _ _ _ rfl], g6⟩
  | .long s, n, hp => by
    obtain ⟨d, g1, g2, g3, g4, g5, g6⟩ := prim_doc ascii sort fmt (.long s) rfl hp
    exact ⟨d, g1, g2, g3, g4, fun p => by rw [g5, write_prim _ _ _ _ _ rfl], g6⟩
  | .dbl s, n, hp => by
    obtain ⟨d, g1, g2, g3, g4, g5, g6⟩ := prim_doc ascii sort fmt (.dbl s) rfl hp
    exact ⟨d, g1, g2, g3, g4, fun p => by rw [g5, write_prim _ _ _ _ _ rfl], g6⟩
termination_by v => sizeOf v
decreasing_by all_goals (simp_wf; try omega)

theorem print_items (ascii sort : Bool) (fmt : Bytes → Bytes) (c : Bool) : ∀ (x : Json) (xs : List Json) (n : Nat), PrintableItems ascii sort fmt (x :: xs) →
    ∃ R, (∀ first, writeItems fmt c n first (x :: xs) = getIndent c n ++ comma (!first) ++ R) ∧
      ∀ w1 w2, Space w1 → Space w2 → ∃ its : Items, its.WF ascii ∧ its.Fits ∧ its.Distinct ascii ∧
        its.values ascii sort = reprintItems fmt (x :: xs) ∧ its.text = w1 ++ R ++ w2 ∧ (CleanItems fmt (x :: xs) → its.Standard)
  | x, [], n, hp => by
    obtain ⟨d, g1, g2, g3, g4, g5, g6⟩ := print_doc ascii sort fmt c x n hp.1
    refine ⟨d.text ++ endl c, fun first => by simp [writeItems, g5], fun w1 w2 hw1 hw2 => ?_⟩
    exact ⟨.one w1 d (endl c ++ w2), ⟨hw1.blank, g1, (space_append (space_endl c) hw2).blank⟩, g2, g3,
      by simp [Items.values, reprintItems, g4], by simp [Items.text], fun hc => ⟨hw1, g6 hc.1, space_append (space_endl c) hw2⟩⟩
  | x, y :: ys, n, hp => by
    obtain ⟨d, g1, g2, g3, g4, g5, g6⟩ := print_doc ascii sort fmt c x n hp.1
    obtain ⟨R, h1, h2⟩ := print_items ascii sort fmt c y ys n hp.2
    refine ⟨d.text ++ endl c ++ getIndent c n ++ b!"," ++ R, fun first => ?_, fun w1 w2 hw1 hw2 => ?_⟩
    · rw [writeItems, g5, h1]; simp [comma]
    · obtain ⟨its, k1, k2, k3, k4, k5, k6⟩ := h2 [] w2 space_nil hw2
      exact ⟨.more w1 d (endl c ++ getIndent c n) its, ⟨hw1.blank, g1, blank_append (blank_endl c) (blank_indent c n), k1⟩, ⟨g2, k2⟩, ⟨g3, k3⟩,
        by simp [Items.values, g4, k4, reprintItems], by simp [Items.text, k5],
        fun hc => ⟨hw1, g6 hc.1, space_append (space_endl c) (space_indent c n), k6 hc.2⟩⟩
termination_by x xs => sizeOf x + sizeOf xs
decreasing_by all_goals (simp_wf; try omega)

theorem print_entries (ascii sort : Bool) (fmt : Bytes → Bytes) (c : Bool) : ∀ (k : Bytes) (v : Json) (es : List (Bytes × Json)) (n : Nat),
    PrintableEntries ascii sort fmt ((k, v) :: es) →
    ∃ R, (∀ first, writeEntries fmt c n first ((k, v) :: es) = getIndent c n ++ comma (!first) ++ R) ∧
      ∀ w1 w2, Space w1 → Space w2 → ∃ ms : Members, ms.WF ascii ∧ ms.Fits ∧ ms.Distinct ascii ∧
        ms.entries ascii sort = reprintEntries fmt ((k, v) :: es) ∧ ms.text = w1 ++ R ++ w2 ∧
        (CleanEntries fmt ((k, v) :: es) → ms.Standard)
  | k, v, [], n, ⟨⟨items, hk1, hk2, hk3⟩, hnostr, hpv, hpes⟩ => by
    obtain ⟨d, g1, g2, g3, g4, g5, g6⟩ := print_doc ascii sort fmt c v n hpv
    obtain ⟨w3, hw3, e3⟩ := value_text fmt c n v d.text hnostr g5
    refine ⟨b!"\"" ++ k ++ b!"\":" ++ w3 ++ d.text ++ endl c, fun first => ?_, fun w1 w2 hw1 hw2 => ?_⟩
    · rw [writeEntries, e3]; simp [writeEntries]
    · exact ⟨.one w1 items [] w3 d (endl c ++ w2), ⟨hw1.blank, hk1, blank_nil, hw3.blank, g1, (space_append (space_endl c) hw2).blank⟩, g2, g3,
          by simp [Members.entries, hk3, g4, reprintEntries], by simp [Members.text, strText, hk2],
          fun hc => ⟨hw1, by rw [strText, hk2]; exact noControl_quoted hc.1, space_nil, hw3, g6 hc.2.1, space_append (space_endl c) hw2⟩⟩
  | k, v, (k', v') :: es, n, ⟨⟨items, hk1, hk2, hk3⟩, hnostr, hpv, hpes⟩ => by
    obtain ⟨d, g1, g2, g3, g4, g5, g6⟩ := print_doc ascii sort fmt c v n hpv
    obtain ⟨w3, hw3, e3⟩ := value_text fmt c n v d.text hnostr g5
    obtain ⟨R, h1, h2⟩ := print_entries ascii sort fmt c k' v' es n hpes
    refine ⟨b!"\"" ++ k ++ b!"\":" ++ w3 ++ d.text ++ endl c ++ getIndent c n ++ b!"," ++ R, fun first => ?_, fun w1 w2 hw1 hw2 => ?_⟩
    · rw [writeEntries, e3, h1]; simp [comma]
    · obtain ⟨ms, k1, k2, k3, k4, k5, k6⟩ := h2 [] w2 space_nil hw2
      exact ⟨.more w1 items [] w3 d (endl c ++ getIndent c n) ms, ⟨hw1.blank, hk1, blank_nil, hw3.blank, g1, blank_append (blank_endl c) (blank_indent c n), k1⟩,
        ⟨g2, k2⟩, ⟨g3, k3⟩, by simp [Members.entries, hk3, g4, k4, reprintEntries], by simp [Members.text, strText, hk2, k5],
        fun hc => ⟨hw1, by rw [strText, hk2]; exact noControl_quoted hc.1, space_nil, hw3, g6 hc.2.1, space_append (space_endl c) (space_indent c n), k6 hc.2.2⟩⟩
termination_by k v es => sizeOf v + sizeOf es
decreasing_by all_goals (simp_wf; try omega)
end

/-- **C21 does not hold**, whatever the settings of the reader: a string as the value of an object entry is printed without quotes, so
the document `{"k":"v"}` is printed as a text that cannot be read, and `{"k":"1"}` as one that reads as a different document; a
string with a quote is printed unescaped. -/
theorem C21_round_trip_false (fmt : Bytes → Bytes) (strict ascii sort : Bool) (surr : Nat → Option Bytes) (junk : List Byte) (n : Nat) (compressed : Bool) :
    (∃ v e, Model.read (envOf strict ascii sort surr) (St.init junk n b!"{\"k\":\"v\"}") = .ret (some v) e ∧
      ∃ x, Model.read (envOf strict ascii sort surr) (St.init junk n (display fmt compressed v)) = .throw x) ∧
    (∃ v s, Model.read (envOf strict ascii sort surr) (St.init junk n b!"{\"k\":\"1\"}") = .ret (some v) s ∧ v = .obj [(b!"k", .str b!"1")] ∧
      ∃ s', Model.read (envOf strict ascii sort surr) (St.init junk n (display fmt compressed v)) = .ret (some (.obj [(b!"k", .int 1)])) s') ∧
    (∃ v s, Model.read (envOf strict ascii sort surr) (St.init junk n b!"[\"\\\"\"]") = .ret (some v) s ∧
      ∃ x, Model.read (envOf strict ascii sort surr) (St.init junk n (display fmt compressed v)) = .throw x) := by
  refine ⟨⟨.obj [(b!"k", .str b!"v")], ?_⟩, ⟨.obj [(b!"k", .str b!"1")], ?_⟩, ⟨.arr [.str b!"\""], ?_⟩⟩
  · cases sort <;> cases compressed <;> exact ⟨_, rfl, _, rfl⟩
  · cases sort <;> cases compressed <;> exact ⟨_, rfl, rfl, _, rfl⟩
  · cases compressed <;> exact ⟨_, rfl, _, rfl⟩

/-- **C21, the part that holds.** Reading the redirected output (pretty or compact) of a printable document, strictly or not, gives
the same document (fractional numbers in the form they are printed) and no warning. Missing: the documents that are not
printable: strings or keys with characters that need an escape, strings as values of object entries, numbers printed
without a fraction (`inf`, `nan`). -/
theorem C21_round_trip_partial (fmt : Bytes → Bytes) (ascii sort compressed : Bool) (surr : Nat → Option Bytes) (junk : List Byte) (n : Nat)
    (v : Json) (hv : Printable ascii sort fmt v) :
    ∃ s', Model.read (envOf true ascii sort surr) (St.init junk n (display fmt compressed v)) = .ret (some (reprint fmt v)) s' ∧ s'.warns = [] := by
  obtain ⟨d, g1, g2, g3, g4, g5, _⟩ := print_doc ascii sort fmt compressed v 0 hv
  obtain ⟨s', h1, h2, _⟩ := C02_documents_are_read ascii sort surr junk n d (getIndent compressed 0) (endl compressed) g1 g2 g3 (blank_indent _ _) (.inl (blank_endl _))
  refine ⟨s', ?_, h2⟩
  rw [← g4, ← h1, display, g5]
  simp [comma]

theorem selfReading_raw (ascii : Bool) (s : Bytes) (h : ∀ c ∈ s, c ≠ 34 ∧ c ≠ 92) : SelfReading ascii s := by
  refine ⟨s.map .raw, ?_, ?_, ?_⟩
  · intro i hi
    obtain ⟨c, hc, rfl⟩ := List.mem_map.mp hi
    exact h c hc
  · simp [List.flatMap_map, StrItem.text]
  · simp [strValue, List.flatMap_map, StrItem.value]

/-- `{"a":[1,-5000000000,1.5,"x y\n"],"b":{}}` (the escape is kept) is printable. -/
def printableExample : Json := .obj [(b!"a", .arr [.int 1, .long (-5000000000), .dbl b!"1.5", .str b!"x y\\n"]), (b!"b", .obj [])]
example : Printable false true (fun s => s ++ b!"00000") printableExample := by
  refine ⟨by decide, fun _ => by decide, selfReading_raw _ _ (by decide), by simp, ⟨⟨by decide, by decide, by decide⟩, ⟨by decide, by decide, by decide⟩, ?_, ?_, trivial⟩, ?_⟩
  · exact ⟨false, b!"1", b!"500000", by simp [Digits], by simp [Digits], rfl⟩
  · exact ⟨[.raw 120, .raw 32, .raw 121, .ctl 110], by simp [strWF, StrItem.WF], rfl, rfl⟩
  · exact ⟨selfReading_raw _ _ (by decide), by simp, ⟨by decide, fun _ => by decide, trivial⟩, trivial⟩

/-- **C59 does not hold**: what is printed for `{"k":"v"}` or a string with a quote is no JSON text. -/
theorem C59_standard_output_false (fmt : Bytes → Bytes) (compressed : Bool) :
    ∃ v, Clean fmt v ∧ ¬ ∃ (d : Doc) (w : Bytes), d.Standard ∧ d.WF false ∧ Space w ∧ display fmt compressed v = d.text ++ w := by
  refine ⟨.str b!"\"", by simp [Clean, NoControl], ?_⟩
  rintro ⟨d, w, -, h2, h3, h4⟩
  have h5 : 34 :: 34 :: 34 :: endl compressed = d.text ++ w := by
    rw [← h4]; cases compressed <;> simp [display, write, writePrimitive, getIndent, comma, endl, Json.stringify]
  clear h4
  have num : ∀ (neg : Bool) (ds x : Bytes), Digits ds → 34 :: 34 :: 34 :: endl compressed ≠ intText neg ds ++ x := by
    intro neg ds x hd h
    cases neg
    · cases ds with
      | nil => exact hd.1 rfl
      | cons a ds =>
        have := hd.2 a (by simp)
        simp [intText] at h
        omega
    · simp [intText] at h
  cases d with
  | str items =>
    cases items with
    | nil =>
      simp [Doc.text, strText] at h5
      have := h3 34 (by simp [← h5])
      omega
    | cons i items =>
      have hi := h2 i (by simp)
      cases i with
      | raw c => simp [Doc.text, strText, StrItem.text] at h5; exact hi.1 h5.1.symm
      | esc c => simp [Doc.text, strText, StrItem.text] at h5
      | ctl c => simp [Doc.text, strText, StrItem.text] at h5
      | uni a b c d => simp [Doc.text, strText, StrItem.text] at h5
  | int neg ds => exact num neg ds _ h2 (by simpa [Doc.text] using h5)
  | frac neg ds fs => exact num neg ds (46 :: fs ++ w) h2.1 (by simpa [Doc.text] using h5)
  | _ => simp [Doc.text] at h5

/-- **C59, the part that holds.** The redirected output (pretty or compact) of a clean printable document is a standard JSON text
(RFC 8259) followed by blanks, and it denotes that document. Missing: as for C21. -/
theorem C59_standard_output_partial (fmt : Bytes → Bytes) (ascii sort compressed : Bool) (v : Json) (hv : Printable ascii sort fmt v) (hc : Clean fmt v) :
    ∃ (d : Doc) (w : Bytes), display fmt compressed v = d.text ++ w ∧ d.Standard ∧ d.WF ascii ∧ d.Distinct ascii ∧ Space w ∧
      d.value ascii sort = reprint fmt v := by
  obtain ⟨d, g1, g2, g3, g4, g5, g6⟩ := print_doc ascii sort fmt compressed v 0 hv
  refine ⟨d, endl compressed, ?_, g6 hc, g1, g3, space_endl _, g4⟩
  rw [display, g5]
  cases compressed <;> simp [comma, getIndent]

example : Clean (fun s => s ++ b!"00000") printableExample := by
  simp [printableExample, Clean, CleanItems, CleanEntries, NoControl, NoLeadingZero]

end Verif.Props
