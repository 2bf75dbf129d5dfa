import Verif.Spec.Mistakes
import Verif.Lemmas.Grammar
import Verif.Lemmas.ReaderHist
/-!
# Lemmas: reading up to a place in a text
-/
namespace Verif.Lemmas
open Verif.Model Verif.Spec

theorem HistRel.weaken {input : Bytes} {Hd : LHist → Bytes → Prop} {At : Bytes → Prop} (H : HistRel input Hd At) :
    HistRel input Hd (fun _ => True) where
  at1 := fun _ _ _ => trivial
  at2 := fun _ _ _ _ => trivial
  put := H.put
  putPop := H.putPop
  null := fun h h' t d x1 x2 x3 a b c e => ⟨(H.null h h' t d x1 x2 x3 a b c e).1, trivial⟩
  nullShort := H.nullShort
  uni := fun h h' t x1 x2 x3 x4 a b c => ⟨(H.uni h h' t x1 x2 x3 x4 a b c).1, trivial⟩
  uniShort := fun h h' t xs a b c d => ⟨(H.uniShort h h' t xs a b c d).1, trivial⟩

variable {input : Bytes} {Hd : LHist → Bytes → Prop} {env : Env}

/-- The history describes what has been read of `input`. -/
abbrev Sync (input : Bytes) (Hd : LHist → Bytes → Prop) (s : St) : Prop := StOK input Hd (fun _ => True) s

theorem Sync.tok (H : HistRel input Hd (fun _ => True)) {s s' : St} {t : Tok} (hs : Sync input Hd s) (h : consumeToken env s = .ret t s') : Sync input Hd s' :=
  (Post.of_ret ((hist_inv H env).tok s hs) h).1

theorem Sync.item (H : HistRel input Hd (fun _ => True)) {s s' : St} {v : Json} {f : Nat} (hs : Sync input Hd s) (h : item env f s = .ret v s') : Sync input Hd s' := by
  have hp : (Lemmas.item env f s).Post (fun _ s' => Sync input Hd s') (ThrowOK input Hd (fun _ => True)) := by
    unfold Lemmas.item
    refine Post.bind (R := fun _ s => Sync input Hd s) (Post.mono ((hist_inv H env).tok s hs) (fun _ _ h => h.1) (fun _ h => h)) ?_
    intro t s1 h1
    cases t with
    | val v => exact h1
    | nothing => exact h1.some
    | punct c =>
      simp only [arrItem]
      split
      · exact Post.mono ((reader_inv (hist_inv H env) f).2.2.1 s1 h1) (fun _ _ h => h.1) (fun _ h => h)
      · split
        · exact Post.mono ((reader_inv (hist_inv H env) f).2.1 none s1 h1 (by simp)) (fun _ _ h => h.1) (fun _ h => h)
        · exact h1.some
  exact Post.of_ret (R := fun _ s' => Sync input Hd s') hp h

/-- Reading a value from a state fails, for a root or member and for an item of an array. -/
def FailsV (env : Env) (s : St) (e : Exn) : Prop := ∃ f, readNext env f s = .throw e ∧ item env f s = .throw e

theorem throw_mono {α : Type} {o o' : Out α} {e : Exn} (h : o = .throw e) (hr : Refines o o') : o' = .throw e := by
  rw [hr (by rw [h]; simp), h]

/-- A token that fails. -/
theorem failsV_tok {s : St} {e : Exn} (h : consumeToken env s = .throw e) : FailsV env s e := by
  refine ⟨1, ?_, ?_⟩
  · rw [readNext_succ, h]; rfl
  · unfold Lemmas.item; rw [h]; rfl

/-- A value that begins with `[` fails if the array does. -/
theorem failsV_arr {w rest : Bytes} {hist : LHist} {warns : List Exn} {e : Exn} (hw : Blank w) {f : Nat}
    (h : readArray env f ⟨rest, true, (w.foldl LHist.put hist).put 91, warns⟩ = .throw e) : FailsV env ⟨w ++ 91 :: rest, true, hist, warns⟩ e := by
  refine ⟨f + 1, ?_, ?_⟩
  · rw [readNext_succ, consumeToken_good, skip_blank hw, punct_tok (by decide)]
    simp only [Out.bind]
    rw [if_neg (by decide), if_pos True.intro, h]
  · unfold Lemmas.item
    rw [consumeToken_good, skip_blank hw, punct_tok (by decide)]
    simp only [Out.bind, arrItem]
    rw [if_pos True.intro]
    exact throw_mono h ((reader_mono env f (f + 1) (by omega)).2.2.1 _)

theorem failsV_obj {w rest : Bytes} {hist : LHist} {warns : List Exn} {e : Exn} (hw : Blank w) {f : Nat}
    (h : objectLoop env f none ⟨rest, true, (w.foldl LHist.put hist).put 123, warns⟩ = .throw e) : FailsV env ⟨w ++ 123 :: rest, true, hist, warns⟩ e := by
  refine ⟨f + 1, ?_, ?_⟩
  · rw [readNext_succ, consumeToken_good, skip_blank hw, punct_tok (by decide)]
    simp only [Out.bind]
    rw [if_pos True.intro, h]
  · unfold Lemmas.item
    rw [consumeToken_good, skip_blank hw, punct_tok (by decide)]
    simp only [Out.bind, arrItem]
    rw [if_neg (by decide), if_pos True.intro]
    exact throw_mono h ((reader_mono env f (f + 1) (by omega)).2.1 _ _)

/-- After `[` and complete items, the next token. -/
def arrNext (env : Env) (f : Nat) (first : Bool) (acc : List Json) (t : Tok) (s : St) : Out Json :=
  match t with
  | .punct c => if first = true ∧ c = 93 then .ret (.arr []) s else arrayLoop env f acc (.punct c) s
  | t => arrayLoop env f acc t s

theorem arrNext_notFirst (f : Nat) (acc : List Json) (t : Tok) (s : St) : arrNext env f false acc t s = arrayLoop env f acc t s := by
  cases t <;> simp [arrNext]

theorem good_okD {ascii strict : Bool} {d : Doc} (h : GoodDoc ascii strict d) : okD ascii strict d := (okD_iff ascii strict d).mpr h.2

theorem ends_follow {d : Doc} {rest : Bytes} (h : Ends d rest) : Follow d rest := by
  have key1 : (∀ c, rest.head? = some c → c ∉ b!"0123456789.") → NumFollow rest := by
    rintro h c r rfl
    have := h c rfl
    simp at this
    refine ⟨?_, by omega⟩
    unfold isDigit; simp; omega
  have key2 : (∀ c, rest.head? = some c → c ∉ b!"aelrsuAELRSU") → BoolFollow rest := by
    rintro h c r rfl
    have := h c rfl
    simp at this
    unfold isBoolLetter toLower
    split <;> simp <;> omega
  cases d <;> first | exact key1 h | exact key2 h | trivial

theorem Sync.warn {s : St} (hs : Sync input Hd s) (k : Bytes) : Sync input Hd (warnDup s k) :=
  ⟨hs.good, hs.bad, hs.warns.snoc hs.some⟩

/-- What is kept while the reader goes through a text: `I` before, `J` after the first token. -/
structure Held (env : Env) (I J : St → Prop) : Prop where
  sub : ∀ s, J s → I s
  tok : ∀ {s s' : St} {t : Tok}, I s → consumeToken env s = .ret t s' → J s'
  item : ∀ {s s' : St} {v : Json} {f : Nat}, I s → Lemmas.item env f s = .ret v s' → J s'
  warn : ∀ (s : St) (k : Bytes), J s → J (warnDup s k)

theorem sync_held (H : HistRel input Hd (fun _ => True)) (env : Env) : Held env (Sync input Hd) (Sync input Hd) :=
  ⟨fun _ h => h, fun h e => h.tok H e, fun h e => h.item H e, fun _ k h => h.warn k⟩

variable {I J : St → Prop}

/-- An item is read, and its comma. -/
theorem item_step (H : Held env I J) {d : Doc} (hd : GoodDoc env.ascii env.strictOr d) {w1 rest : Bytes} (h1 : Blank w1) (hf : Follow d rest) (hr : rest ≠ []) (acc : List Json) {hist : LHist} {warns : List Exn}
    (hs : I ⟨w1 ++ d.text ++ rest, true, hist, warns⟩) :
    ∃ F acc' h ws, J ⟨rest, true, h, ws⟩ ∧ (∀ t s, tokenLoop env (w1 ++ d.text ++ rest) hist warns = .ret t s → t ≠ .punct 93) ∧
      ∀ f, F ≤ f → (tokenLoop env (w1 ++ d.text ++ rest) hist warns).bind (arrayLoop env (f + 1) acc) =
        (tokenLoop env rest h ws).bind (arrSep env f acc') := by
  obtain ⟨F, g, h, ws, hg, _, e⟩ := readsD env d hd.1 (good_okD hd) w1 rest hist warns h1 hf
  have hg : g = true := by rcases hg with hg | hg; exact hg; exact absurd hg hr
  subst hg
  refine ⟨F, acc ++ [d.value env.ascii env.sort], h, warns ++ ws, H.item hs e, ?_, fun f hf' => ?_⟩
  · rintro t s ht rfl
    unfold Lemmas.item at e
    rw [consumeToken_good, ht] at e
    simp [Out.bind, arrItem] at e
  · have e' : Lemmas.item env f ⟨w1 ++ d.text ++ rest, true, hist, warns⟩ = _ := (item_mono env hf' _ (by rw [e]; simp)).trans e
    have hb : ∀ o : Out Tok, o.bind (fun t s => arrayLoop env (f + 1) acc t s) =
        (o.bind (arrItem env f)).bind (fun child s => (consumeToken env s).bind (arrSep env f (acc ++ [child]))) := by
      intro o; rw [bind_assoc]; congr 1
    rw [hb]
    unfold Lemmas.item at e'
    rw [consumeToken_good] at e'
    rw [e']
    simp only [Out.bind]
    rw [consumeToken_good]

/-- Complete items of an array: the reader goes on after the last comma. -/
theorem items_step (H : Held env I J) (items : List DoneItem) (hi : ∀ i ∈ items, i.Good env.ascii env.strictOr) (rest : Bytes) : ∀ (first : Bool) (acc : List Json) (hist : LHist) (warns : List Exn),
    J ⟨itemsText items ++ rest, true, hist, warns⟩ →
    ∃ acc' h ws, J ⟨rest, true, h, ws⟩ ∧ ∀ e f, (tokenLoop env rest h ws).bind (arrNext env f (first && items.isEmpty) acc') = .throw e →
      ∃ f', (tokenLoop env (itemsText items ++ rest) hist warns).bind (arrNext env f' first acc) = .throw e := by
  induction items with
  | nil =>
    intro first acc hist warns hs
    exact ⟨acc, hist, warns, hs, fun e f h => ⟨f, by simpa [itemsText] using h⟩⟩
  | cons i items ih =>
    intro first acc hist warns hs
    obtain ⟨h1, hd, h2⟩ := hi i (by simp)
    have et : itemsText (i :: items) ++ rest = i.w1 ++ i.d.text ++ (i.w2 ++ 44 :: (itemsText items ++ rest)) := by
      simp [itemsText, DoneItem.text]
    rw [et] at hs ⊢
    obtain ⟨F, acc1, ha, wa, hsa, hne, e1⟩ := item_step H hd h1 (follow_sep i.d h2 (Or.inl rfl) _) (by simp) acc (H.sub _ hs)
    have hsb : J ⟨itemsText items ++ rest, true, (i.w2.foldl LHist.put ha).put 44, wa⟩ :=
      H.tok (t := .punct 44) (H.sub _ hsa) (by rw [consumeToken_good, skip_blank h2, punct_tok (by decide)])
    obtain ⟨acc', h, ws, hs', e2⟩ := ih (fun i hi' => hi i (by simp [hi'])) false acc1 _ _ hsb
    refine ⟨acc', h, ws, hs', fun e f he => ?_⟩
    obtain ⟨f2, e3⟩ := e2 e f (by simpa using he)
    refine ⟨max F f2 + 1, ?_⟩
    have hn : (tokenLoop env (i.w1 ++ i.d.text ++ (i.w2 ++ 44 :: (itemsText items ++ rest))) hist warns).bind (arrNext env (max F f2 + 1) first acc) =
        (tokenLoop env (i.w1 ++ i.d.text ++ (i.w2 ++ 44 :: (itemsText items ++ rest))) hist warns).bind (arrayLoop env (max F f2 + 1) acc) := by
      cases ht : tokenLoop env (i.w1 ++ i.d.text ++ (i.w2 ++ 44 :: (itemsText items ++ rest))) hist warns with
      | ret t s =>
        simp only [Out.bind]
        have := hne t s ht
        cases t with
        | punct c => simp only [arrNext]; rw [if_neg]; rintro ⟨_, rfl⟩; exact this rfl
        | _ => rfl
      | _ => rfl
    rw [hn, e1 _ (by omega), skip_blank h2, punct_tok (by decide)]
    simp only [Out.bind, arrSep]
    rw [if_neg (by decide), if_pos True.intro, consumeToken_good]
    have e4 : (tokenLoop env (itemsText items ++ rest) ((i.w2.foldl LHist.put ha).put 44) wa).bind (arrayLoop env f2 acc1) = .throw e := by
      rw [← e3]; congr 1; funext t s; exact (arrNext_notFirst f2 acc1 t s).symm
    exact throw_mono e4 (Refines.bind .rfl (fun t s => (reader_mono env f2 (max F f2) (by omega)).2.2.2 _ t s))

/-- An array that has been opened. -/
theorem open_arr (H : Held env I J) {w : Bytes} (hw : Blank w) (items : List DoneItem) (hi : ∀ i ∈ items, i.Good env.ascii env.strictOr) (rest : Bytes) {hist : LHist} {warns : List Exn}
    (hs : I ⟨w ++ b!"[" ++ itemsText items ++ rest, true, hist, warns⟩) :
    ∃ acc h ws, J ⟨rest, true, h, ws⟩ ∧ ∀ e f, (tokenLoop env rest h ws).bind (arrNext env f items.isEmpty acc) = .throw e →
      FailsV env ⟨w ++ b!"[" ++ itemsText items ++ rest, true, hist, warns⟩ e := by
  have et : w ++ b!"[" ++ itemsText items ++ rest = w ++ 91 :: (itemsText items ++ rest) := by simp
  rw [et] at hs ⊢
  have hs1 : J ⟨itemsText items ++ rest, true, (w.foldl LHist.put hist).put 91, warns⟩ :=
    H.tok (t := .punct 91) hs (by rw [consumeToken_good, skip_blank hw, punct_tok (by decide)])
  obtain ⟨acc, h, ws, h1, h2⟩ := items_step H items hi rest true [] _ _ hs1
  refine ⟨acc, h, ws, h1, fun e f he => ?_⟩
  obtain ⟨f', e'⟩ := h2 e f (by simpa using he)
  refine failsV_arr hw (f := f' + 1) ?_
  rw [readArray_succ, consumeToken_good, ← e']
  congr 1
  funext t s
  cases t with
  | punct c => simp [arrNext]
  | _ => rfl

/-- A member, up to its colon. -/
theorem key_step (H : Held env I J) (r : Option Entries) {w1 w2 : Bytes} {k : List StrItem} (h1 : Blank w1) (hk : strWF env.ascii k) (h2 : Blank w2) (rest : Bytes) {hist : LHist} {warns : List Exn}
    (hs : I ⟨w1 ++ (strText k ++ (w2 ++ (58 :: rest))), true, hist, warns⟩) :
    ∃ h, J ⟨rest, true, h, warns⟩ ∧ ∀ f, objectLoop env (f + 1) r ⟨w1 ++ (strText k ++ (w2 ++ (58 :: rest))), true, hist, warns⟩ =
      (if (Json.contains (r.getD []) (strValue env.ascii k) && env.strictOr) = true then
        .throw ⟨.doubleKey (strValue env.ascii k), h⟩
      else (readNext env f (if Json.contains (r.getD []) (strValue env.ascii k)
          then warnDup ⟨rest, true, h, warns⟩ (strValue env.ascii k) else ⟨rest, true, h, warns⟩)).bind
        (objChild env f (dropKey (r.getD []) (strValue env.ascii k)) (strValue env.ascii k)) : Out Json) := by
  obtain ⟨ha, e1⟩ := string_tok env k hk (w2 ++ (58 :: rest)) (w1.foldl LHist.put hist) warns
  have hs1 := H.tok hs (by rw [consumeToken_good, skip_blank h1]; exact e1)
  have hs2 := H.tok (t := .punct 58) (H.sub _ hs1) (by rw [consumeToken_good, skip_blank h2, punct_tok (by decide)])
  refine ⟨(w2.foldl LHist.put ha).put 58, hs2, fun f => ?_⟩
  rw [objectLoop_succ, consumeToken_good, skip_blank h1, e1]
  simp only [Out.bind, objKey]
  rw [consumeToken_good, skip_blank h2, punct_tok (by decide)]
  simp only [Out.bind, objColon]
  rw [if_neg (by simp)]

/-- A member whose value is still to come. -/
theorem member_open (H : Held env I J) (r : Option Entries) {w1 w2 : Bytes} {k : List StrItem} (h1 : Blank w1) (hk : strWF env.ascii k) (h2 : Blank w2) (rest : Bytes) {hist : LHist} {warns : List Exn}
    (hs : I ⟨w1 ++ (strText k ++ (w2 ++ (58 :: rest))), true, hist, warns⟩) (hc : env.strictOr = true → strValue env.ascii k ∉ keys (r.getD [])) :
    ∃ h ws, J ⟨rest, true, h, ws⟩ ∧ ∀ f, objectLoop env (f + 1) r ⟨w1 ++ (strText k ++ (w2 ++ (58 :: rest))), true, hist, warns⟩ =
      (readNext env f ⟨rest, true, h, ws⟩).bind (objChild env f (dropKey (r.getD []) (strValue env.ascii k)) (strValue env.ascii k)) := by
  obtain ⟨h, hs', e⟩ := key_step H r h1 hk h2 rest hs
  have hn : (Json.contains (r.getD []) (strValue env.ascii k) && env.strictOr) = false := by
    cases hst : env.strictOr
    · simp
    · rw [Bool.and_true]; exact (contains_false_iff _ _).mpr (hc hst)
  cases hcon : Json.contains (r.getD []) (strValue env.ascii k)
  · refine ⟨h, warns, hs', fun f => ?_⟩
    rw [e, hn, hcon]; simp
  · refine ⟨h, _, H.warn _ (strValue env.ascii k) hs', fun f => ?_⟩
    rw [e, hn, hcon]; simp [warnDup]

/-- A member is read. -/
theorem member_done (H : Held env I J) {d : Doc} (hd : GoodDoc env.ascii env.strictOr d) (r : Option Entries) {w1 w2 w3 : Bytes} {k : List StrItem} (h1 : Blank w1) (hk : strWF env.ascii k) (h2 : Blank w2) (h3 : Blank w3)
    (rest : Bytes) (hf : Follow d rest) (hr : rest ≠ []) {hist : LHist} {warns : List Exn}
    (hs : I ⟨w1 ++ (strText k ++ (w2 ++ (58 :: (w3 ++ d.text ++ rest)))), true, hist, warns⟩) (hc : env.strictOr = true → strValue env.ascii k ∉ keys (r.getD [])) :
    ∃ F h ws, J ⟨rest, true, h, ws⟩ ∧ ∀ f, F ≤ f → objectLoop env (f + 1) r ⟨w1 ++ (strText k ++ (w2 ++ (58 :: (w3 ++ d.text ++ rest)))), true, hist, warns⟩ =
      (tokenLoop env rest h ws).bind (objSep env f (addEntry env (dropKey (r.getD []) (strValue env.ascii k)) (strValue env.ascii k) (d.value env.ascii env.sort))) := by
  obtain ⟨h, ws, hs', e⟩ := member_open H r h1 hk h2 (w3 ++ d.text ++ rest) hs hc
  obtain ⟨F, g, h', ws', hg, _, e'⟩ := readsD env d hd.1 (good_okD hd) w3 rest h ws h3 hf
  have hg : g = true := by rcases hg with hg | hg; exact hg; exact absurd hg hr
  subst hg
  refine ⟨F + 1, h', ws ++ ws', H.item (H.sub _ hs') e', fun f hF => ?_⟩
  rw [e, readNext_of_item env e' f hF]
  simp only [Out.bind, objChild]
  rw [consumeToken_good]

/-- Complete members of an object: the reader goes on after the last comma. -/
theorem members_step (H : Held env I J) (ms : List DoneMember) (hm : ∀ m ∈ ms, m.Good env.ascii env.strictOr) (rest : Bytes) : ∀ (r : Option Entries) (hist : LHist) (warns : List Exn),
    (keys (r.getD [])).Nodup → (env.strictOr = true → (keys (r.getD []) ++ keysOf env.ascii ms).Nodup) →
    J ⟨membersText ms ++ rest, true, hist, warns⟩ →
    ∃ (r' : Option Entries) (h : LHist) (ws : List Exn), J ⟨rest, true, h, ws⟩ ∧ (keys (r'.getD [])).Nodup ∧ (∀ k, k ∈ keys (r'.getD []) ↔ k ∈ keys (r.getD []) ++ keysOf env.ascii ms) ∧ (r'.isNone = (r.isNone && ms.isEmpty)) ∧
      ∀ e f, objectLoop env f r' ⟨rest, true, h, ws⟩ = .throw e → ∃ f', objectLoop env f' r ⟨membersText ms ++ rest, true, hist, warns⟩ = .throw e := by
  induction ms with
  | nil =>
    intro r hist warns hn _ hs
    exact ⟨r, hist, warns, hs, hn, by simp [keysOf], by simp, fun e f h => ⟨f, by simpa [membersText] using h⟩⟩
  | cons m ms ih =>
    intro r hist warns hn hd hs
    obtain ⟨h1, hk, h2, h3, hdoc, h4⟩ := hm m (by simp)
    have et : membersText (m :: ms) ++ rest = m.w1 ++ (strText m.key ++ (m.w2 ++ (58 :: (m.w3 ++ m.d.text ++ (m.w4 ++ 44 :: (membersText ms ++ rest)))))) := by
      simp [membersText, DoneMember.text]
    rw [et] at hs ⊢
    have hc : env.strictOr = true → strValue env.ascii m.key ∉ keys (r.getD []) := by
      intro hst hmem
      have := hd hst
      rw [List.nodup_append] at this
      exact this.2.2 _ hmem _ (by simp [keysOf]) rfl
    obtain ⟨F, ha, wa, hsa, e1⟩ := member_done H hdoc r h1 hk h2 h3 _ (follow_sep m.d h4 (Or.inl rfl) (membersText ms ++ rest)) (by simp) (H.sub _ hs) hc
    have hsb : J ⟨membersText ms ++ rest, true, (m.w4.foldl LHist.put ha).put 44, wa⟩ :=
      H.tok (t := .punct 44) (H.sub _ hsa) (by rw [consumeToken_good, skip_blank h4, punct_tok (by decide)])
    obtain ⟨hn', hmem⟩ := addOne_nodup env (r.getD []) (strValue env.ascii m.key) (m.d.value env.ascii env.sort) hn
    obtain ⟨r', h, ws, hs', g1, g2, g3, e2⟩ := ih (fun x hx => hm x (by simp [hx]))
      (some (addEntry env (dropKey (r.getD []) (strValue env.ascii m.key)) (strValue env.ascii m.key) (m.d.value env.ascii env.sort))) _ _ hn' (by
        intro hst
        have h0 := hd hst
        simp only [Option.getD_some]
        rw [List.nodup_append] at h0 ⊢
        obtain ⟨a1, a2, a3⟩ := h0
        simp only [keysOf, List.map_cons, List.nodup_cons] at a2
        refine ⟨hn', a2.2, ?_⟩
        intro a ha b hb hab
        subst hab
        rcases List.mem_cons.mp ((hmem a).mp ha) with rfl | hka
        · exact a2.1 hb
        · exact a3 a hka a (by simp only [keysOf, List.map_cons]; exact List.mem_cons_of_mem _ hb) rfl) hsb
    refine ⟨r', h, ws, hs', g1, ?_, by simpa using g3, fun e f he => ?_⟩
    · intro k
      rw [g2 k]
      simp only [Option.getD_some, List.mem_append, hmem k]
      simp [keysOf, or_left_comm, or_assoc]
    · obtain ⟨f2, e3⟩ := e2 e f he
      refine ⟨max F f2 + 1, ?_⟩
      rw [e1 _ (by omega), skip_blank h4, punct_tok (by decide)]
      simp only [Out.bind, objSep]
      rw [if_neg (by decide)]
      exact throw_mono e3 ((reader_mono env f2 (max F f2) (by omega)).2.1 _ _)

/-- An object that has been opened. -/
theorem open_obj (H : Held env I J) {w : Bytes} (hw : Blank w) (ms : List DoneMember) (hm : ∀ m ∈ ms, m.Good env.ascii env.strictOr) (hd : env.strictOr = true → (keysOf env.ascii ms).Nodup) (rest : Bytes)
    {hist : LHist} {warns : List Exn} (hs : I ⟨w ++ b!"{" ++ membersText ms ++ rest, true, hist, warns⟩) :
    ∃ (r : Option Entries) (h : LHist) (ws : List Exn), J ⟨rest, true, h, ws⟩ ∧ (keys (r.getD [])).Nodup ∧ (∀ k, k ∈ keys (r.getD []) ↔ k ∈ keysOf env.ascii ms) ∧ r.isNone = ms.isEmpty ∧
      ∀ e f, objectLoop env f r ⟨rest, true, h, ws⟩ = .throw e → FailsV env ⟨w ++ b!"{" ++ membersText ms ++ rest, true, hist, warns⟩ e := by
  have et : w ++ b!"{" ++ membersText ms ++ rest = w ++ 123 :: (membersText ms ++ rest) := by simp
  rw [et] at hs ⊢
  have hs1 : J ⟨membersText ms ++ rest, true, (w.foldl LHist.put hist).put 123, warns⟩ :=
    H.tok (t := .punct 123) hs (by rw [consumeToken_good, skip_blank hw, punct_tok (by decide)])
  obtain ⟨r, h, ws, h1, h2, h3, h4, h5⟩ := members_step H ms hm rest none _ _ List.nodup_nil (by simpa [keys] using hd) hs1
  refine ⟨r, h, ws, h1, h2, by simpa [keys] using h3, by simpa using h4, fun e f he => ?_⟩
  obtain ⟨f', e'⟩ := h5 e f he
  exact failsV_obj hw e'

/-- What fails as a value fails as an item. -/
theorem failsV_item {rest : Bytes} {h : LHist} {ws : List Exn} {e : Exn} (hf : FailsV env ⟨rest, true, h, ws⟩ e) (first : Bool) (acc : List Json) :
    ∃ f, (tokenLoop env rest h ws).bind (arrNext env f first acc) = .throw e := by
  obtain ⟨f, h1, h2⟩ := hf
  refine ⟨f + 1, ?_⟩
  unfold Lemmas.item at h2
  rw [consumeToken_good] at h2
  cases f with
  | zero => simp [readNext] at h1
  | succ f =>
    rw [readNext_succ, consumeToken_good] at h1
    cases ht : tokenLoop env rest h ws with
    | ret t s =>
      rw [ht] at h1 h2
      simp only [Out.bind] at h1 h2 ⊢
      have hn : arrNext env (f + 1 + 1) first acc t s = arrayLoop env (f + 1 + 1) acc t s := by
        cases t with
        | punct c =>
          simp only [arrNext]
          rw [if_neg]
          rintro ⟨_, rfl⟩
          simp at h1
        | _ => rfl
      rw [hn, arrayLoop_succ, h2]
      rfl
    | throw e' => rw [ht] at h2; exact h2
    | uncaught u => rw [ht] at h2; simp [Out.bind] at h2
    | ub u => rw [ht] at h2; simp [Out.bind] at h2
    | fuel => rw [ht] at h2; simp [Out.bind] at h2

/-- What fails as a value fails as the value of a member. -/
theorem frame_step (H : Held env I J) (fr : Frame) (hfr : fr.Good env.ascii env.strictOr) (rest : Bytes) {hist : LHist} {warns : List Exn}
    (hs : I ⟨fr.text ++ rest, true, hist, warns⟩) :
    ∃ h ws, J ⟨rest, true, h, ws⟩ ∧ ∀ e, FailsV env ⟨rest, true, h, ws⟩ e → FailsV env ⟨fr.text ++ rest, true, hist, warns⟩ e := by
  cases fr with
  | arr w items =>
    obtain ⟨acc, h, ws, h1, h2⟩ := open_arr H hfr.1 items hfr.2 rest hs
    refine ⟨h, ws, h1, fun e he => ?_⟩
    obtain ⟨f, e'⟩ := failsV_item he items.isEmpty acc
    exact h2 e f e'
  | obj w ms w1 k w2 =>
    obtain ⟨g1, g2, g3, g4, g5, g6⟩ := hfr
    have et : Frame.text (.obj w ms w1 k w2) ++ rest = w ++ b!"{" ++ membersText ms ++ (w1 ++ (strText k ++ (w2 ++ (58 :: rest)))) := by simp [Frame.text]
    rw [et] at hs ⊢
    obtain ⟨r, h, ws, h1, h2, h3, h4, h5⟩ := open_obj H g1 ms g2 (fun hst => (List.nodup_append.mp (g6 hst)).1) _ hs
    obtain ⟨h', ws', h6, h7⟩ := member_open H r g3 g4 g5 rest (H.sub _ h1) (by
      intro hst hk
      have := List.nodup_append.mp (g6 hst)
      exact this.2.2 _ ((h3 _).mp hk) _ (by simp) rfl)
    refine ⟨h', ws', h6, ?_⟩
    rintro e ⟨f, e1, _⟩
    refine h5 e (f + 1) ?_
    rw [h7, e1]
    rfl

theorem frames_step (H : Held env I J) (fs : List Frame) (hfs : ∀ f ∈ fs, f.Good env.ascii env.strictOr) (rest : Bytes) : ∀ (hist : LHist) (warns : List Exn),
    I ⟨framesText fs ++ rest, true, hist, warns⟩ →
    ∃ h ws, I ⟨rest, true, h, ws⟩ ∧ ∀ e, FailsV env ⟨rest, true, h, ws⟩ e → FailsV env ⟨framesText fs ++ rest, true, hist, warns⟩ e := by
  induction fs with
  | nil => intro hist warns hs; exact ⟨hist, warns, by simpa [framesText] using hs, fun e he => by simpa [framesText] using he⟩
  | cons fr fs ih =>
    intro hist warns hs
    have et : framesText (fr :: fs) ++ rest = fr.text ++ (framesText fs ++ rest) := by simp [framesText]
    rw [et] at hs ⊢
    obtain ⟨h, ws, h1, h2⟩ := frame_step H fr (hfs fr (by simp)) _ hs
    obtain ⟨h', ws', h3, h4⟩ := ih (fun f hf => hfs f (by simp [hf])) h ws (H.sub _ h1)
    exact ⟨h', ws', h3, fun e he => h2 e (h4 e he)⟩

end Verif.Lemmas
