import Verif.Lemmas.Tokens
import Verif.Lemmas.ReaderFuel
import Verif.Lemmas.Sort
/-!
# Lemmas: JSON texts are read as what they denote
-/
namespace Verif.Lemmas
open Verif.Model Verif.Spec

/-! ### Object construction -/

/-- Adding members one after the other. -/
def addAll (env : Env) (es : Entries) : Entries → Entries
  | [] => es
  | (k, v) :: m => addAll env (addEntry env (dropKey es k) k v) m

theorem dropKey_eq (es : Entries) (k : Bytes) (hn : (keys es).Nodup) :
    dropKey es k = es.filter (fun e => decide (e.1 ≠ k)) := by
  unfold dropKey
  split
  · exact erase_eq_filter es k hn
  · rename_i h
    simp only [Bool.not_eq_true, contains_false_iff] at h
    symm
    rw [List.filter_eq_self]
    intro e he
    simp
    rintro rfl
    exact h (List.mem_map_of_mem (f := Prod.fst) he)

theorem dropKey_nodup (es : Entries) (k : Bytes) (hn : (keys es).Nodup) : (keys (dropKey es k)).Nodup ∧ k ∉ keys (dropKey es k) := by
  rw [dropKey_eq es k hn, keys_filter]
  exact ⟨hn.filter _, by simp⟩

theorem addEntry_perm (env : Env) (es : Entries) (k : Bytes) (v : Json) : (addEntry env es k v).Perm ((k, v) :: es) := by
  unfold addEntry; split
  · exact sortedPush_perm _ _ _
  · exact push_perm _ _ _

theorem addOne_nodup (env : Env) (es : Entries) (k : Bytes) (v : Json) (hn : (keys es).Nodup) :
    (keys (addEntry env (dropKey es k) k v)).Nodup ∧
      ∀ x, x ∈ keys (addEntry env (dropKey es k) k v) ↔ x ∈ k :: keys es := by
  obtain ⟨h1, h2⟩ := dropKey_nodup es k hn
  have hp := addEntry_perm env (dropKey es k) k v
  refine ⟨nodup_of_perm_push hp h1 h2, fun x => ?_⟩
  have : (keys (addEntry env (dropKey es k) k v)).Perm (k :: keys (dropKey es k)) := hp.map Prod.fst
  rw [this.mem_iff, dropKey_eq es k hn, keys_filter]
  by_cases hx : x = k <;> simp [hx]

theorem any_key (m : Entries) (k : Bytes) : m.any (fun e' => decide (e'.1 = k)) = decide (k ∈ keys m) := by
  rw [Bool.eq_iff_iff, decide_eq_true_iff, ← contains_iff]
  rfl

theorem addAll_keep (env : Env) (he : env.sort = false) (m : Entries) : ∀ es, (keys es).Nodup →
    addAll env es m = es.filter (fun e => decide (e.1 ∉ keys m)) ++ lastWins m := by
  induction m with
  | nil =>
    intro es _
    have : es.filter (fun e => decide (e.1 ∉ keys [])) = es := by rw [List.filter_eq_self]; simp [keys]
    rw [this]; simp [addAll, lastWins]
  | cons e m ih =>
    intro es hn
    obtain ⟨k, v⟩ := e
    rw [addAll, ih _ (addOne_nodup env es k v hn).1, dropKey_eq es k hn]
    simp only [addEntry, he, Bool.false_eq_true, if_false, Json.push, List.filter_append, List.filter_filter, lastWins, any_key]
    have hf : (fun e : Bytes × Json => decide (e.1 ∉ keys ((k, v) :: m))) = (fun e => decide (e.1 ∉ keys m) && decide (e.1 ≠ k)) := by
      funext e
      rw [Bool.eq_iff_iff]
      rw [Bool.and_eq_true, decide_eq_true_iff, decide_eq_true_iff, decide_eq_true_iff]
      simp only [keys, List.map_cons, List.mem_cons, not_or]
      exact and_comm
    rw [hf]
    by_cases hk : k ∈ keys m
    · simp [hk]
    · simp [hk]

theorem addAll_sort (env1 env2 : Env) (h1 : env1.sort = true) (h2 : env2.sort = false) (m : Entries) : ∀ es, (keys es).Nodup →
    addAll env1 (sortByKey es) m = sortByKey (addAll env2 es m) := by
  induction m with
  | nil => intro es _; rfl
  | cons e m ih =>
    intro es hn
    obtain ⟨k, v⟩ := e
    rw [addAll, addAll, ← ih _ (addOne_nodup env2 es k v hn).1]
    congr 1
    obtain ⟨d1, d2⟩ := dropKey_nodup es k hn
    have hd : dropKey (sortByKey es) k = sortByKey (dropKey es k) := by
      unfold dropKey
      rw [contains_congr (keys_sortByKey_perm es)]
      split
      · exact erase_sortByKey es k hn
      · rfl
    simp only [addEntry, h1, h2, if_true, Bool.false_eq_true, if_false]
    rw [hd, sortedPush_sortByKey _ _ _ d1 d2]

theorem addAll_nil (env : Env) (m : Entries) :
    addAll env [] m = if env.sort then sortByKey (lastWins m) else lastWins m := by
  have key : ∀ env2 : Env, env2.sort = false → addAll env2 [] m = lastWins m := by
    intro env2 h; rw [addAll_keep env2 h m [] List.nodup_nil]; rfl
  cases hs : env.sort
  · rw [key env hs]; rfl
  · have := addAll_sort env ⟨some ⟨true, true, false⟩, fun _ => none⟩ hs rfl m [] List.nodup_nil
    rw [key _ rfl] at this
    rw [show sortByKey [] = ([] : Entries) by simp [sortByKey]] at this
    simp [this]

/-! ### Documents that are read -/

section
variable (ascii strict : Bool)

mutual
/-- The value is read: integers fit, and in strict mode no key is repeated. -/
def okD : Doc → Prop
  | .int neg ds => FitsLong (intValue neg ds)
  | .arr its => okI its
  | .obj ms => okM [] ms
  | _ => True
def okI : Items → Prop
  | .one _ d _ => okD d
  | .more _ d _ its => okD d ∧ okI its
def okM (seen : List Bytes) : Members → Prop
  | .one _ k _ _ d _ => (strict = true → strValue ascii k ∉ seen) ∧ okD d
  | .more _ k _ _ d _ ms => (strict = true → strValue ascii k ∉ seen) ∧ okD d ∧ okM (strValue ascii k :: seen) ms
end

mutual
theorem okD_iff : (d : Doc) → (okD ascii strict d ↔ d.Fits ∧ (strict = true → d.Distinct ascii))
  | .str _ => by simp [okD, Doc.Fits, Doc.Distinct]
  | .true => by simp [okD, Doc.Fits, Doc.Distinct]
  | .false => by simp [okD, Doc.Fits, Doc.Distinct]
  | .null => by simp [okD, Doc.Fits, Doc.Distinct]
  | .int _ _ => by simp [okD, Doc.Fits, Doc.Distinct]
  | .frac _ _ _ => by simp [okD, Doc.Fits, Doc.Distinct]
  | .arr0 _ => by simp [okD, Doc.Fits, Doc.Distinct]
  | .obj0 _ => by simp [okD, Doc.Fits, Doc.Distinct]
  | .arr its => by simp only [okD, Doc.Fits, Doc.Distinct]; exact okI_iff its
  | .obj ms => by
    simp only [okD, Doc.Fits, Doc.Distinct]
    rw [okM_iff ms []]
    simp
    intro _
    exact ⟨fun h hs => ⟨(h hs).2, (h hs).1⟩, fun h hs => ⟨(h hs).2, (h hs).1⟩⟩
theorem okI_iff : (its : Items) → (okI ascii strict its ↔ its.Fits ∧ (strict = true → its.Distinct ascii))
  | .one _ d _ => by simp only [okI, Items.Fits, Items.Distinct]; exact okD_iff d
  | .more _ d _ its => by
    simp only [okI, Items.Fits, Items.Distinct]
    rw [okD_iff d, okI_iff its]
    constructor
    · rintro ⟨⟨a, b⟩, c, e⟩; exact ⟨⟨a, c⟩, fun h => ⟨b h, e h⟩⟩
    · rintro ⟨⟨a, c⟩, h⟩; exact ⟨⟨a, fun hs => (h hs).1⟩, c, fun hs => (h hs).2⟩
theorem okM_iff : (ms : Members) → (seen : List Bytes) → (okM ascii strict seen ms ↔ ms.Fits ∧
      (strict = true → ms.Distinct ascii ∧ (ms.keys ascii).Nodup ∧ ∀ k ∈ ms.keys ascii, k ∉ seen))
  | .one _ k _ _ d _, seen => by
    simp only [okM, Members.Fits, Members.Distinct, Members.keys]
    rw [okD_iff d]
    simp
    constructor
    · rintro ⟨a, b, c⟩; exact ⟨b, fun h => ⟨c h, a h⟩⟩
    · rintro ⟨b, h⟩; exact ⟨fun hs => (h hs).2, b, fun hs => (h hs).1⟩
  | .more _ k _ _ d _ ms, seen => by
    simp only [okM, Members.Fits, Members.Distinct, Members.keys]
    rw [okD_iff d, okM_iff ms]
    simp only [List.nodup_cons, List.mem_cons]
    constructor
    · rintro ⟨a, ⟨b, c⟩, e, f⟩
      refine ⟨⟨b, e⟩, fun hs => ⟨⟨c hs, (f hs).1⟩, ⟨fun hm => (f hs).2.2 _ hm (Or.inl rfl), (f hs).2.1⟩, ?_⟩⟩
      rintro x (rfl | hx)
      · exact a hs
      · exact fun hseen => (f hs).2.2 x hx (Or.inr hseen)
    · rintro ⟨⟨b, e⟩, f⟩
      refine ⟨fun hs => (f hs).2.2 _ (Or.inl rfl), ⟨b, fun hs => (f hs).1.1⟩, e, fun hs => ⟨(f hs).1.2, (f hs).2.1.2, ?_⟩⟩
      rintro x hx (rfl | hseen)
      · exact (f hs).2.1.1 hx
      · exact (f hs).2.2 x (Or.inr hx) hseen
end

theorem okM_congr {s s' : List Bytes} (h : ∀ k, k ∈ s ↔ k ∈ s') (ms : Members) : okM ascii strict s ms ↔ okM ascii strict s' ms := by
  rw [okM_iff, okM_iff]
  simp only [h]

end

theorem repeatsAfter_congr {s s' : List Bytes} (h : ∀ k, k ∈ s ↔ k ∈ s') (ks : List Bytes) : repeatsAfter s ks = repeatsAfter s' ks := by
  induction ks generalizing s s' with
  | nil => rfl
  | cons k ks ih =>
    simp only [repeatsAfter, h]
    rw [ih (s := k :: s) (s' := k :: s') (by simp [h])]

/-! ### Reading -/

theorem bind_assoc {α β γ : Type} (o : Out α) (f : α → St → Out β) (g : β → St → Out γ) :
    (o.bind f).bind g = o.bind (fun a s => (f a s).bind g) := by cases o <;> rfl

theorem consumeToken_good (env : Env) (rest : Bytes) (h : LHist) (w : List Exn) :
    consumeToken env ⟨rest, true, h, w⟩ = tokenLoop env rest h w := rfl

theorem arrItem_mono (env : Env) {f1 f2 : Nat} (h : f1 ≤ f2) (t : Tok) (s : St) :
    Refines (arrItem env f1 t s) (arrItem env f2 t s) := by
  obtain ⟨_, hO, hA, _⟩ := reader_mono env f1 f2 h
  cases t <;> simp only [arrItem]
  · exact .rfl
  · exact .ite (hA _) (.ite (hO _ _) .rfl)
  · exact .rfl

/-- A value is read from a state: its token, then the container the token opens. -/
def item (env : Env) (f : Nat) (s : St) : Out Json := (consumeToken env s).bind (arrItem env f)

theorem item_mono (env : Env) {f1 f2 : Nat} (h : f1 ≤ f2) (s : St) : Refines (item env f1 s) (item env f2 s) :=
  .bind .rfl (fun _ _ => arrItem_mono env h _ _)

/-- `readNext` is `item`, as long as there is a value. -/
theorem readNext_item (env : Env) (f : Nat) (s : St) :
    (∀ v s', item env f s = .ret v s' → readNext env (f + 1) s = .ret (some v) s') ∧
    (∀ e, item env f s = .throw e → e.kind ≠ .notJson → readNext env (f + 1) s = .throw e) ∧
    (∀ u, item env f s = .uncaught u → readNext env (f + 1) s = .uncaught u) := by
  rw [readNext_succ]
  unfold item
  cases consumeToken env s with
  | ret t s1 =>
    simp only [Out.bind]
    cases t with
    | val v => simp [arrItem]
    | nothing => simp [arrItem]
    | punct c =>
      simp only [arrItem]
      by_cases h1 : c = 91
      · rw [if_pos h1, if_neg (by omega), if_pos h1]
        refine ⟨?_, ?_, ?_⟩
        · intro v s' h; rw [h]
        · intro e h _; rw [h]
        · intro e h; rw [h]
      · rw [if_neg h1]
        by_cases h2 : c = 123
        · rw [if_pos h2, if_pos h2]
          refine ⟨?_, ?_, ?_⟩
          · intro v s' h; rw [h]
          · intro e h _; rw [h]
          · intro e h; rw [h]
        · rw [if_neg h2, if_neg h2, if_neg h1]
          simp
  | throw e => simp [Out.bind]
  | uncaught u => simp [Out.bind]
  | ub u => simp [Out.bind]
  | fuel => simp [Out.bind]

/-- The byte after a value does not continue it. -/
def Follow (d : Doc) (rest : Bytes) : Prop :=
  match d with
  | .int _ _ => NumFollow rest
  | .frac _ _ _ => NumFollow rest
  | .true => BoolFollow rest
  | .false => BoolFollow rest
  | _ => True

theorem follow_sep (d : Doc) {w : Bytes} (hw : Blank w) {c : Byte} (hc : c = 44 ∨ c = 93 ∨ c = 125) (r : Bytes) :
    Follow d (w ++ c :: r) := by
  have hx : ∀ x l, w ++ c :: r = x :: l → x ≤ 32 ∨ 127 ≤ x ∨ x = 44 ∨ x = 93 ∨ x = 125 := by
    intro x l h
    cases w with
    | nil => simp at h; omega
    | cons y w =>
      simp at h
      have := hw y (by simp)
      omega
  have h1 : NumFollow (w ++ c :: r) := by
    intro x l h
    have := hx x l h
    refine ⟨?_, by omega⟩
    unfold isDigit; simp; omega
  have h2 : BoolFollow (w ++ c :: r) := by
    intro x l h
    have := hx x l h
    have ht : toLower x = x := by unfold toLower; rw [if_neg (by omega)]
    rw [ht]
    unfold isBoolLetter
    simp; omega
  cases d <;> first | exact h1 | exact h2 | trivial

/-- Warnings about repeated keys. -/
def DupWarns (ws : List Exn) (n : Nat) : Prop := ws.length = n ∧ ∀ e ∈ ws, ∃ k, e.kind = .doubleKey k

theorem DupWarns.append {a b : List Exn} {n m : Nat} (ha : DupWarns a n) (hb : DupWarns b m) : DupWarns (a ++ b) (n + m) := by
  refine ⟨by simp [ha.1, hb.1], fun e he => ?_⟩
  simp at he
  rcases he with he | he
  · exact ha.2 e he
  · exact hb.2 e he

theorem DupWarns.nil : DupWarns [] 0 := ⟨rfl, by simp⟩

variable (env : Env)

/-- What is proved of a value. -/
def ReadsD (d : Doc) : Prop :=
  ∀ w rest hist warns, Blank w → Follow d rest → ∃ f g h ws, (g = true ∨ rest = []) ∧ DupWarns ws (d.dups env.ascii) ∧
    item env f ⟨w ++ d.text ++ rest, true, hist, warns⟩ = .ret (d.value env.ascii env.sort) ⟨rest, g, h, warns ++ ws⟩

/-- What is proved of the items of an array. -/
def ReadsI (its : Items) : Prop :=
  ∀ acc rest hist warns, ∃ f h ws, DupWarns ws (its.dups env.ascii) ∧
    (tokenLoop env (its.text ++ 93 :: rest) hist warns).bind (fun t s => arrayLoop env f acc t s) =
      .ret (.arr (acc ++ its.values env.ascii env.sort)) ⟨rest, true, h, warns ++ ws⟩

/-- What is proved of the members of an object. -/
def ReadsM (ms : Members) : Prop :=
  ∀ r rest hist warns, (keys (r.getD [])).Nodup → okM env.ascii env.strictOr (keys (r.getD [])) ms →
    ∃ f h ws, DupWarns ws (repeatsAfter (keys (r.getD [])) (ms.keys env.ascii) + ms.dups env.ascii) ∧
    objectLoop env f r ⟨ms.text ++ 125 :: rest, true, hist, warns⟩ =
      .ret (.obj (addAll env (r.getD []) (ms.entries env.ascii env.sort))) ⟨rest, true, h, warns ++ ws⟩

theorem readsD_prim {d : Doc} (v : Json) (hd : d.dups env.ascii = 0) (hv : d.value env.ascii env.sort = v)
    (h : ∀ rest hist warns, Follow d rest → ∃ g h, (g = true ∨ rest = []) ∧
      tokenLoop env (d.text ++ rest) hist warns = .ret (.val v) ⟨rest, g, h, warns⟩) : ReadsD env d := by
  intro w rest hist warns hw hf
  obtain ⟨g, h, hg, e⟩ := h rest (w.foldl LHist.put hist) warns hf
  refine ⟨0, g, h, [], hg, by rw [hd]; exact .nil, ?_⟩
  unfold item
  rw [consumeToken_good, List.append_assoc, skip_blank hw, e]
  simp [Out.bind, arrItem, hv]

/-- One member: key, colon, value; then the separator decides. -/
theorem member_step (r : Option Entries) (w1 w2 : Bytes) (k : List StrItem) (rest : Bytes) (hist : LHist) (warns : List Exn)
    (h1 : Blank w1) (hk : strWF env.ascii k) (h2 : Blank w2) :
    ∃ hist', ∀ f, objectLoop env (f + 1) r ⟨w1 ++ (strText k ++ (w2 ++ (58 :: rest))), true, hist, warns⟩ =
      (if (Json.contains (r.getD []) (strValue env.ascii k) && env.strictOr) = true then
        .throw ⟨.doubleKey (strValue env.ascii k), hist'⟩
      else (readNext env f (if Json.contains (r.getD []) (strValue env.ascii k)
          then warnDup ⟨rest, true, hist', warns⟩ (strValue env.ascii k) else ⟨rest, true, hist', warns⟩)).bind
        (objChild env f (dropKey (r.getD []) (strValue env.ascii k)) (strValue env.ascii k)) : Out Json) := by
  obtain ⟨ha, e1⟩ := string_tok env k hk (w2 ++ (58 :: rest)) (w1.foldl LHist.put hist) warns
  refine ⟨(w2.foldl LHist.put ha).put 58, fun f => ?_⟩
  rw [objectLoop_succ, consumeToken_good, skip_blank h1, e1]
  simp only [Out.bind, objKey]
  rw [consumeToken_good, skip_blank h2, punct_tok (by decide)]
  simp only [Out.bind, objColon]
  rw [if_neg (by simp)]

theorem readNext_of_item {f : Nat} {s : St} {v : Json} {s' : St} (h : item env f s = .ret v s') :
    ∀ f', f + 1 ≤ f' → readNext env f' s = .ret (some v) s' := by
  intro f' hf
  have h1 := (readNext_item env f s).1 v s' h
  rw [← h1]
  exact (reader_mono env _ _ hf).1 s (by rw [h1]; simp)

theorem member_ok (d : Doc) (hd : ReadsD env d) (r : Option Entries) (w1 w2 w3 : Bytes) (k : List StrItem) (rest : Bytes) (hist : LHist) (warns : List Exn)
    (h1 : Blank w1) (hk : strWF env.ascii k) (h2 : Blank w2) (h3 : Blank w3) (hf : Follow d rest) (hr : rest ≠ [])
    (hok : env.strictOr = true → strValue env.ascii k ∉ keys (r.getD [])) :
    ∃ f h ws, DupWarns ws ((if strValue env.ascii k ∈ keys (r.getD []) then 1 else 0) + d.dups env.ascii) ∧ ∀ f', f ≤ f' →
      objectLoop env (f' + 1) r ⟨w1 ++ (strText k ++ (w2 ++ (58 :: (w3 ++ d.text ++ rest)))), true, hist, warns⟩ =
        (tokenLoop env rest h (warns ++ ws)).bind (objSep env f'
          (addEntry env (dropKey (r.getD []) (strValue env.ascii k)) (strValue env.ascii k) (d.value env.ascii env.sort))) := by
  obtain ⟨ha, e1⟩ := member_step env r w1 w2 k (w3 ++ d.text ++ rest) hist warns h1 hk h2
  by_cases hc : strValue env.ascii k ∈ keys (r.getD [])
  · have hst : env.strictOr = false := by
      cases h : env.strictOr
      · rfl
      · exact absurd hc (hok h)
    have hcon := (contains_iff _ _).mpr hc
    obtain ⟨f, g, h, ws, hg, hws, e⟩ := hd w3 rest ha (warns ++ [⟨.doubleKey (strValue env.ascii k), ha⟩]) h3 hf
    have hg : g = true := by rcases hg with hg | hg; exact hg; exact absurd hg hr
    subst hg
    refine ⟨f + 1, h, [⟨.doubleKey (strValue env.ascii k), ha⟩] ++ ws, ?_, ?_⟩
    · rw [if_pos hc]
      exact DupWarns.append ⟨rfl, by simp⟩ hws
    · intro f' hf'
      rw [e1, hcon, hst]
      simp only [Bool.and_false, Bool.false_eq_true, if_false, if_true, warnDup]
      rw [readNext_of_item env e f' hf']
      simp only [Out.bind, objChild]
      rw [consumeToken_good, List.append_assoc]
  · have hcon := (contains_false_iff _ _).mpr hc
    obtain ⟨f, g, h, ws, hg, hws, e⟩ := hd w3 rest ha warns h3 hf
    have hg : g = true := by rcases hg with hg | hg; exact hg; exact absurd hg hr
    subst hg
    refine ⟨f + 1, h, ws, ?_, ?_⟩
    · rw [if_neg hc, Nat.zero_add]; exact hws
    · intro f' hf'
      rw [e1, hcon]
      simp only [Bool.false_and, Bool.false_eq_true, if_false]
      rw [readNext_of_item env e f' hf']
      simp only [Out.bind, objChild]
      rw [consumeToken_good]

theorem item_ok (d : Doc) (hd : ReadsD env d) (w rest : Bytes) (hist : LHist) (warns : List Exn) (acc : List Json)
    (hw : Blank w) (hf : Follow d rest) (hr : rest ≠ []) :
    ∃ f h ws, DupWarns ws (d.dups env.ascii) ∧ ∀ f', f ≤ f' →
      (tokenLoop env (w ++ d.text ++ rest) hist warns).bind (fun t s => arrayLoop env (f' + 1) acc t s) =
        (tokenLoop env rest h (warns ++ ws)).bind (arrSep env f' (acc ++ [d.value env.ascii env.sort])) := by
  obtain ⟨f, g, h, ws, hg, hws, e⟩ := hd w rest hist warns hw hf
  have hg : g = true := by rcases hg with hg | hg; exact hg; exact absurd hg hr
  subst hg
  refine ⟨f, h, ws, hws, fun f' hf' => ?_⟩
  have e' : item env f' ⟨w ++ d.text ++ rest, true, hist, warns⟩ = _ := (item_mono env hf' _ (by rw [e]; simp)).trans e
  have : ∀ o : Out Tok, o.bind (fun t s => arrayLoop env (f' + 1) acc t s) =
      (o.bind (arrItem env f')).bind (fun child s => (consumeToken env s).bind (arrSep env f' (acc ++ [child]))) := by
    intro o; rw [bind_assoc]; congr 1
  rw [this]
  unfold item at e'
  rw [consumeToken_good] at e'
  rw [e']
  simp only [Out.bind]
  rw [consumeToken_good]

mutual
theorem readsD : (d : Doc) → d.WF env.ascii → okD env.ascii env.strictOr d → ReadsD env d
  | .str items, hwf, _ => by
    refine readsD_prim env (.str (strValue env.ascii items)) rfl rfl (fun rest hist warns _ => ?_)
    obtain ⟨h, e⟩ := string_tok env items hwf rest hist warns
    exact ⟨true, h, Or.inl rfl, e⟩
  | .true, _, _ => by
    refine readsD_prim env (.bool Bool.true) rfl rfl (fun rest hist warns hf => ?_)
    obtain ⟨g, h, hg, _, e⟩ := bool_tok env Bool.true rest hf hist warns
    exact ⟨g, h, hg, e⟩
  | .false, _, _ => by
    refine readsD_prim env (.bool Bool.false) rfl rfl (fun rest hist warns hf => ?_)
    obtain ⟨g, h, hg, _, e⟩ := bool_tok env Bool.false rest hf hist warns
    exact ⟨g, h, hg, e⟩
  | .null, _, _ => by
    refine readsD_prim env .null rfl rfl (fun rest hist warns hf => ?_)
    obtain ⟨h, e⟩ := null_tok env rest hist warns
    exact ⟨true, h, Or.inl rfl, e⟩
  | .int neg ds, hwf, hok => by
    refine readsD_prim env _ rfl rfl (fun rest hist warns hf => ?_)
    obtain ⟨g, h, hg, _, e⟩ := (int_tok env neg ds hwf rest hf hist warns).1 hok
    exact ⟨g, h, hg, e⟩
  | .frac neg ds fs, hwf, _ => by
    refine readsD_prim env _ rfl rfl (fun rest hist warns hf => ?_)
    obtain ⟨g, h, hg, _, e⟩ := frac_tok env neg ds fs hwf.1 hwf.2 rest hf hist warns
    exact ⟨g, h, hg, e⟩
  | .arr0 w', hwf, _ => by
    intro w rest hist warns hw _
    have e : w ++ Doc.text (.arr0 w') ++ rest = w ++ (91 :: (w' ++ (93 :: rest))) := by simp [Doc.text]
    refine ⟨1, Bool.true, (w'.foldl LHist.put ((w.foldl LHist.put hist).put 91)).put 93, [], Or.inl rfl, .nil, ?_⟩
    unfold item
    rw [e, consumeToken_good, skip_blank hw, punct_tok (by decide)]
    simp only [Out.bind, arrItem, if_true]
    rw [readArray_succ, consumeToken_good, skip_blank hwf, punct_tok (by decide)]
    simp [Out.bind, Doc.value]
  | .arr its, hwf, hok => by
    intro w rest hist warns hw _
    have e : w ++ Doc.text (.arr its) ++ rest = w ++ (91 :: (its.text ++ (93 :: rest))) := by simp [Doc.text]
    obtain ⟨f, h, ws, hws, e1⟩ := readsI its hwf hok [] rest ((w.foldl LHist.put hist).put 91) warns
    refine ⟨f + 1, Bool.true, h, ws, Or.inl rfl, hws, ?_⟩
    unfold item
    rw [e, consumeToken_good, skip_blank hw, punct_tok (by decide)]
    simp only [Out.bind, arrItem, if_true]
    rw [readArray_succ, consumeToken_good]
    simp only [List.nil_append] at e1
    rw [show Doc.value env.ascii env.sort (.arr its) = .arr (its.values env.ascii env.sort) from rfl, ← e1]
    cases ht : tokenLoop env (its.text ++ 93 :: rest) ((w.foldl LHist.put hist).put 91) warns with
    | ret t s1 =>
      cases t with
      | punct c =>
        simp only [Out.bind]
        by_cases hc : c = 93
        · -- the first token of a non-empty array is no closing bracket
          exfalso
          subst hc
          rw [ht] at e1
          simp only [Out.bind] at e1
          cases f with
          | zero => simp [arrayLoop] at e1
          | succ f => rw [arrayLoop_succ] at e1; simp [arrItem, Out.bind] at e1
        · rw [if_neg hc]
      | _ => rfl
    | _ => rfl
  | .obj0 w', hwf, _ => by
    intro w rest hist warns hw _
    have e : w ++ Doc.text (.obj0 w') ++ rest = w ++ (123 :: (w' ++ (125 :: rest))) := by simp [Doc.text]
    refine ⟨1, Bool.true, (w'.foldl LHist.put ((w.foldl LHist.put hist).put 123)).put 125, [], Or.inl rfl, .nil, ?_⟩
    unfold item
    rw [e, consumeToken_good, skip_blank hw, punct_tok (by decide)]
    simp only [Out.bind, arrItem]
    rw [if_neg (by decide), if_pos True.intro, objectLoop_succ, consumeToken_good, skip_blank hwf, punct_tok (by decide)]
    simp [Out.bind, Doc.value, objKey]
  | .obj ms, hwf, hok => by
    intro w rest hist warns hw _
    have e : w ++ Doc.text (.obj ms) ++ rest = w ++ (123 :: (ms.text ++ (125 :: rest))) := by simp [Doc.text]
    obtain ⟨f, h, ws, hws, e1⟩ := readsM ms hwf none rest ((w.foldl LHist.put hist).put 123) warns List.nodup_nil hok
    refine ⟨f, Bool.true, h, ws, Or.inl rfl, hws, ?_⟩
    unfold item
    rw [e, consumeToken_good, skip_blank hw, punct_tok (by decide)]
    simp only [Out.bind, arrItem]
    rw [if_neg (by decide), if_pos True.intro, e1]
    simp only [Option.getD_none, addAll_nil, Doc.value]
theorem readsI : (its : Items) → its.WF env.ascii → okI env.ascii env.strictOr its → ReadsI env its
  | .one w1 d w2, hwf, hok => by
    intro acc rest hist warns
    obtain ⟨h1, hd, h2⟩ := hwf
    obtain ⟨f, h, ws, hws, e⟩ := item_ok env d (readsD d hd hok) w1 (w2 ++ 93 :: rest) hist warns acc h1
      (follow_sep d h2 (Or.inr (Or.inl rfl)) rest) (by simp)
    refine ⟨f + 1, (w2.foldl LHist.put h).put 93, ws, hws, ?_⟩
    have e2 : Items.text (.one w1 d w2) ++ 93 :: rest = w1 ++ d.text ++ (w2 ++ 93 :: rest) := by simp [Items.text]
    rw [e2, e f (Nat.le_refl _), skip_blank h2, punct_tok (by decide)]
    simp [Out.bind, arrSep, Items.values]
  | .more w1 d w2 its, hwf, hok => by
    intro acc rest hist warns
    obtain ⟨h1, hd, h2, hi⟩ := hwf
    obtain ⟨f, h, ws, hws, e⟩ := item_ok env d (readsD d hd hok.1) w1 (w2 ++ 44 :: (its.text ++ 93 :: rest)) hist warns acc h1
      (follow_sep d h2 (Or.inl rfl) _) (by simp)
    obtain ⟨f2, h', ws', hws', e'⟩ := readsI its hi hok.2 (acc ++ [d.value env.ascii env.sort]) rest ((w2.foldl LHist.put h).put 44) (warns ++ ws)
    refine ⟨max f f2 + 1, h', ws ++ ws', hws.append hws', ?_⟩
    have e2 : Items.text (.more w1 d w2 its) ++ 93 :: rest = w1 ++ d.text ++ (w2 ++ 44 :: (its.text ++ 93 :: rest)) := by simp [Items.text]
    rw [e2, e (max f f2) (by omega), skip_blank h2, punct_tok (by decide)]
    simp only [Out.bind, arrSep]
    rw [if_neg (by decide), if_pos True.intro, consumeToken_good]
    refine ((Refines.bind .rfl (fun t s => (reader_mono env f2 (max f f2) (by omega)).2.2.2 _ t s)) (by rw [e']; simp)).trans ?_
    rw [e']
    simp [Items.values, List.append_assoc]
theorem readsM : (ms : Members) → ms.WF env.ascii → ReadsM env ms
  | .one w1 k w2 w3 d w4, hwf => by
    intro r rest hist warns hn hok
    obtain ⟨h1, hk, h2, h3, hd, h4⟩ := hwf
    obtain ⟨f, h, ws, hws, e⟩ := member_ok env d (readsD d hd hok.2) r w1 w2 w3 k (w4 ++ 125 :: rest) hist warns h1 hk h2 h3
      (follow_sep d h4 (Or.inr (Or.inr rfl)) rest) (by simp) hok.1
    refine ⟨f + 1, (w4.foldl LHist.put h).put 125, ws, ?_, ?_⟩
    · simp only [Members.keys, repeatsAfter, Members.dups]; exact hws
    have e2 : Members.text (.one w1 k w2 w3 d w4) ++ 125 :: rest = w1 ++ (strText k ++ (w2 ++ (58 :: (w3 ++ d.text ++ (w4 ++ 125 :: rest))))) := by
      simp [Members.text]
    rw [e2, e f (Nat.le_refl _), skip_blank h4, punct_tok (by decide)]
    simp [Out.bind, objSep, Members.entries, addAll]
  | .more w1 k w2 w3 d w4 ms, hwf => by
    intro r rest hist warns hn hok
    obtain ⟨h1, hk, h2, h3, hd, h4, hm⟩ := hwf
    obtain ⟨f, h, ws, hws, e⟩ := member_ok env d (readsD d hd hok.2.1) r w1 w2 w3 k (w4 ++ 44 :: (ms.text ++ 125 :: rest)) hist warns h1 hk h2 h3
      (follow_sep d h4 (Or.inl rfl) _) (by simp) hok.1
    obtain ⟨hn', hmem⟩ := addOne_nodup env (r.getD []) (strValue env.ascii k) (d.value env.ascii env.sort) hn
    obtain ⟨f2, h', ws', hws', e'⟩ := readsM ms hm
      (some (addEntry env (dropKey (r.getD []) (strValue env.ascii k)) (strValue env.ascii k) (d.value env.ascii env.sort)))
      rest ((w4.foldl LHist.put h).put 44) (warns ++ ws) hn' ((okM_congr _ _ hmem ms).mpr hok.2.2)
    refine ⟨max f f2 + 1, h', ws ++ ws', ?_, ?_⟩
    · have := hws.append hws'
      simp only [Option.getD_some] at this
      rw [repeatsAfter_congr hmem] at this
      simp only [Members.keys, repeatsAfter, Members.dups]
      have e : ∀ a b c d : Nat, a + b + (c + d) = a + c + (b + d) := by omega
      rwa [e] at this
    have e2 : Members.text (.more w1 k w2 w3 d w4 ms) ++ 125 :: rest =
        w1 ++ (strText k ++ (w2 ++ (58 :: (w3 ++ d.text ++ (w4 ++ 44 :: (ms.text ++ 125 :: rest)))))) := by
      simp [Members.text]
    rw [e2, e (max f f2) (by omega), skip_blank h4, punct_tok (by decide)]
    simp only [Out.bind, objSep]
    rw [if_neg (by decide)]
    refine ((reader_mono env f2 (max f f2) (by omega)).2.1 _ _ (by rw [e']; simp)).trans ?_
    rw [e']
    simp [Members.entries, addAll, List.append_assoc]
end

end Verif.Lemmas
