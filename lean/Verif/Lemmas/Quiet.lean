import Verif.Lemmas.Grammar
/-!
# Lemmas: the reader, with a mark where an object is ended by a value in place of its brace

`Quiet.readNext q` is the reader; with `q = true` it runs out of fuel where it would end an object because of a value in the place of `}` or `,`. The texts of JSON documents are read without that.
The text follows `Lemmas/ReaderEq.lean`, `Lemmas/ReaderFuel.lean` and `Lemmas/Grammar.lean`.
-/
namespace Verif.Lemmas.Quiet
open Verif.Model Verif.Spec

mutual

/-- `src/streamConsumer.cpp:38-58` — `readNext`; `none` is the null pointer. -/
def readNext (q : Bool) (env : Env) : (fuel : Nat) → St → Out (Option Json)
  | 0, _ => .fuel
  | fuel + 1, s =>
    (consumeToken env s).bind fun tok s =>
      match tok with
      | .val v => .ret (some v) s
      | .punct c =>
        if c = c%'{' then (objectLoop q env fuel none s).bind fun v s => .ret (some v) s
        else if c = c%'[' then (readArray q env fuel s).bind fun v s => .ret (some v) s
        else .ret none s
      | .nothing => .ret none s

/-- `src/streamConsumer.cpp:72-99` — the loop of `readObject`; `result` is the object built so far (`none`: null
pointer). -/
def objectLoop (q : Bool) (env : Env) : (fuel : Nat) → (result : Option (List (Bytes × Json))) → St → Out Json
  | 0, _, _ => .fuel
  | fuel + 1, result, s =>
    (consumeToken env s).bind fun tok s =>
      match tok, result with
      | .punct c, none => if c = c%'}' then .ret (.obj []) s else .throw ⟨.notAKey, s.hist⟩
      | .val (.str key), _ =>
        (consumeToken env s).bind fun tok s =>
          match tok with
          | .punct c =>
            if c ≠ c%':' then .throw ⟨.unexpected (c%':'), s.hist⟩
            else
              let es := result.getD []
              let dup := Json.contains es key
              if dup && env.strictOr then .throw ⟨.doubleKey key, s.hist⟩
              else
                let es := if dup then Json.erase es key else es
                let s := if dup then { s with warns := s.warns ++ [⟨.doubleKey key, s.hist⟩] } else s
                (readNext q env fuel s).bind fun child s =>
                  match child with
                  | none => .ub .nullChild
                  | some v =>
                    let es := if env.sort then Json.sortedPush es key v else Json.push es key v
                    (consumeToken env s).bind fun tok s =>
                      match tok with
                      | .val _ => if q then .fuel else .ret (.obj es) s
                      | .punct c => if c = c%'}' then .ret (.obj es) s else objectLoop q env fuel (some es) s
                      | .nothing => objectLoop q env fuel (some es) s
          | _ => .throw ⟨.unexpected (c%':'), s.hist⟩
      | _, _ => .throw ⟨.notAKey, s.hist⟩

/-- `src/streamConsumer.cpp:102-110` — `readArray`: the first token. -/
def readArray (q : Bool) (env : Env) : (fuel : Nat) → St → Out Json
  | 0, _ => .fuel
  | fuel + 1, s =>
    (consumeToken env s).bind fun tok s =>
      match tok with
      | .punct c => if c = c%']' then .ret (.arr []) s else arrayLoop q env fuel [] (.punct c) s
      | tok => arrayLoop q env fuel [] tok s

/-- `src/streamConsumer.cpp:111-134` — the loop of `readArray`; `tok` is the pending token (`child`, `buf`), `acc` the items
pushed so far. -/
def arrayLoop (q : Bool) (env : Env) : (fuel : Nat) → (acc : List Json) → Tok → St → Out Json
  | 0, _, _, _ => .fuel
  | fuel + 1, acc, tok, s =>
    (match tok with
      | .val v => .ret v s
      | .punct c =>
        if c = c%'[' then readArray q env fuel s
        else if c = c%'{' then objectLoop q env fuel none s
        else .throw ⟨.notJson, s.hist⟩
      | .nothing => .throw ⟨.notJson, s.hist⟩ : Out Json).bind fun child s =>
        let acc := acc ++ [child]
        (consumeToken env s).bind fun tok s =>
          match tok with
          | .punct c =>
            if c = c%']' then .ret (.arr acc) s
            else if c = c%',' then (consumeToken env s).bind fun tok s => arrayLoop q env fuel acc tok s
            else .throw ⟨.unexpected (c%']'), s.hist⟩
          | _ => .throw ⟨.unexpected (c%']'), s.hist⟩

end


/-- After the value of a member: the separator. -/
def objSep (q : Bool) (env : Env) (fuel : Nat) (es : List (Bytes × Json)) (tok : Tok) (s : St) : Out Json :=
  match tok with
  | .val _ => if q then .fuel else .ret (.obj es) s
  | .punct c => if c = 125 then .ret (.obj es) s else objectLoop q env fuel (some es) s
  | .nothing => objectLoop q env fuel (some es) s

/-- The value of a member was read. -/
def objChild (q : Bool) (env : Env) (fuel : Nat) (es : List (Bytes × Json)) (key : Bytes) (child : Option Json) (s : St) : Out Json :=
  match child with
  | none => .ub .nullChild
  | some v => (consumeToken env s).bind (objSep q env fuel (addEntry env es key v))

/-- After the key of a member: the colon. -/
def objColon (q : Bool) (env : Env) (fuel : Nat) (es : List (Bytes × Json)) (key : Bytes) (tok : Tok) (s : St) : Out Json :=
  match tok with
  | .punct c =>
    if c ≠ 58 then .throw ⟨.unexpected 58, s.hist⟩
    else if (Json.contains es key && env.strictOr) = true then .throw ⟨.doubleKey key, s.hist⟩
    else (readNext q env fuel (if Json.contains es key then warnDup s key else s)).bind (objChild q env fuel (dropKey es key) key)
  | _ => .throw ⟨.unexpected 58, s.hist⟩

/-- First token of a member. -/
def objKey (q : Bool) (env : Env) (fuel : Nat) (r : Option (List (Bytes × Json))) (tok : Tok) (s : St) : Out Json :=
  match tok with
  | .val (.str key) => (consumeToken env s).bind (objColon q env fuel (r.getD []) key)
  | .punct c => if r.isNone ∧ c = 125 then .ret (.obj []) s else .throw ⟨.notAKey, s.hist⟩
  | _ => .throw ⟨.notAKey, s.hist⟩

theorem objectLoop_succ (q : Bool) (env : Env) (fuel : Nat) (r : Option (List (Bytes × Json))) (s : St) :
    objectLoop q env (fuel + 1) r s = (consumeToken env s).bind (objKey q env fuel r) := by
  rw [objectLoop]
  congr 1
  funext tok s
  cases tok with
  | nothing => cases r <;> rfl
  | punct c => cases r <;> simp [objKey]
  | val v =>
    cases v with
    | str key =>
      have e : ∀ (x : Bytes → Out Json), (match Tok.val (Json.str key), r with
        | .punct c, none => if c = 125 then .ret (.obj []) s else .throw ⟨.notAKey, s.hist⟩
        | .val (.str key), _ => x key
        | _, _ => .throw ⟨.notAKey, s.hist⟩ : Out Json) = x key := by intro x; cases r <;> rfl
      refine (e (fun key => _)).trans ?_
      simp only [objKey]
      rfl
    | _ => cases r <;> rfl

theorem readNext_succ (q : Bool) (env : Env) (fuel : Nat) (s : St) :
    readNext q env (fuel + 1) s = (consumeToken env s).bind fun tok s =>
      match tok with
      | .val v => .ret (some v) s
      | .punct c =>
        if c = 123 then (objectLoop q env fuel none s).bind fun v s => .ret (some v) s
        else if c = 91 then (readArray q env fuel s).bind fun v s => .ret (some v) s
        else .ret none s
      | .nothing => .ret none s := by
  rw [readNext]

theorem readArray_succ (q : Bool) (env : Env) (fuel : Nat) (s : St) :
    readArray q env (fuel + 1) s = (consumeToken env s).bind fun tok s =>
      match tok with
      | .punct c => if c = 93 then .ret (.arr []) s else arrayLoop q env fuel [] (.punct c) s
      | tok => arrayLoop q env fuel [] tok s := by
  rw [readArray]

/-- The pending token of an array becomes an item. -/
def arrItem (q : Bool) (env : Env) (fuel : Nat) (tok : Tok) (s : St) : Out Json :=
  match tok with
  | .val v => .ret v s
  | .punct c =>
    if c = 91 then readArray q env fuel s
    else if c = 123 then objectLoop q env fuel none s
    else .throw ⟨.notJson, s.hist⟩
  | .nothing => .throw ⟨.notJson, s.hist⟩

/-- After an item: the separator. -/
def arrSep (q : Bool) (env : Env) (fuel : Nat) (acc : List Json) (tok : Tok) (s : St) : Out Json :=
  match tok with
  | .punct c =>
    if c = 93 then .ret (.arr acc) s
    else if c = 44 then (consumeToken env s).bind fun tok s => arrayLoop q env fuel acc tok s
    else .throw ⟨.unexpected 93, s.hist⟩
  | _ => .throw ⟨.unexpected 93, s.hist⟩

theorem arrayLoop_succ (q : Bool) (env : Env) (fuel : Nat) (acc : List Json) (tok : Tok) (s : St) :
    arrayLoop q env (fuel + 1) acc tok s =
      (arrItem q env fuel tok s).bind fun child s => (consumeToken env s).bind (arrSep q env fuel (acc ++ [child])) := by
  rw [arrayLoop.eq_def]
  dsimp only
  have e : (arrItem q env fuel tok s) = (match tok with
      | .val v => .ret v s
      | .punct c =>
        if c = 91 then readArray q env fuel s
        else if c = 123 then objectLoop q env fuel none s
        else .throw ⟨.notJson, s.hist⟩
      | .nothing => .throw ⟨.notJson, s.hist⟩ : Out Json) := rfl
  rw [e]
  congr 1

theorem reader_mono (q : Bool) (env : Env) (f1 : Nat) : ∀ f2, f1 ≤ f2 →
    (∀ s, Refines (readNext q env f1 s) (readNext q env f2 s)) ∧
    (∀ r s, Refines (objectLoop q env f1 r s) (objectLoop q env f2 r s)) ∧
    (∀ s, Refines (readArray q env f1 s) (readArray q env f2 s)) ∧
    (∀ acc t s, Refines (arrayLoop q env f1 acc t s) (arrayLoop q env f2 acc t s)) := by
  induction f1 with
  | zero =>
    intro f2 _
    exact ⟨fun _ h => absurd rfl h, fun _ _ h => absurd rfl h, fun _ h => absurd rfl h, fun _ _ _ h => absurd rfl h⟩
  | succ f1 ih =>
    intro f2 hle
    obtain ⟨f2, rfl⟩ : ∃ n, f2 = n + 1 := ⟨f2 - 1, by omega⟩
    obtain ⟨ihN, ihO, ihA, ihL⟩ := ih f2 (by omega)
    have hsep : ∀ es tok s, Refines (objSep q env f1 es tok s) (objSep q env f2 es tok s) := by
      intro es tok s
      cases tok <;> simp only [objSep]
      · exact .rfl
      · exact .ite .rfl (ihO _ _)
      · exact ihO _ _
    have hchild : ∀ es k c s, Refines (objChild q env f1 es k c s) (objChild q env f2 es k c s) := by
      intro es k c s
      cases c <;> simp only [objChild]
      · exact .rfl
      · exact .bind .rfl (fun _ _ => hsep _ _ _)
    have hcolon : ∀ es k t s, Refines (objColon q env f1 es k t s) (objColon q env f2 es k t s) := by
      intro es k t s
      cases t <;> simp only [objColon]
      · exact .rfl
      · exact .ite .rfl (.ite .rfl (.bind (ihN _) (fun _ _ => hchild _ _ _ _)))
      · exact .rfl
    refine ⟨?_, ?_, ?_, ?_⟩
    · intro s
      rw [readNext_succ, readNext_succ]
      refine .bind .rfl (fun t s => ?_)
      cases t
      · exact .rfl
      · exact .ite (.bind (ihO _ _) fun _ _ => .rfl) (.ite (.bind (ihA _) fun _ _ => .rfl) .rfl)
      · exact .rfl
    · intro r s
      rw [objectLoop_succ, objectLoop_succ]
      refine .bind .rfl (fun t s => ?_)
      cases t with
      | val v => 
        cases v <;> simp only [objKey] <;> first | exact .rfl | exact .bind .rfl (fun _ _ => hcolon _ _ _ _)
      | punct c => exact .rfl
      | nothing => exact .rfl
    · intro s
      rw [readArray_succ, readArray_succ]
      refine .bind .rfl (fun t s => ?_)
      cases t
      · exact ihL _ _ _
      · exact .ite .rfl (ihL _ _ _)
      · exact ihL _ _ _
    · intro acc t s
      rw [arrayLoop_succ, arrayLoop_succ]
      refine .bind ?_ (fun v s => .bind .rfl (fun t s => ?_))
      · cases t <;> simp only [arrItem]
        · exact .rfl
        · exact .ite (ihA _) (.ite (ihO _ _) .rfl)
        · exact .rfl
      · cases t <;> simp only [arrSep]
        · exact .rfl
        · exact .ite .rfl (.ite (.bind .rfl fun _ _ => ihL _ _ _) .rfl)
        · exact .rfl

/-- `read` is the outcome with any fuel that suffices. -/
theorem arrItem_mono (q : Bool) (env : Env) {f1 f2 : Nat} (h : f1 ≤ f2) (t : Tok) (s : St) :
    Refines (arrItem q env f1 t s) (arrItem q env f2 t s) := by
  obtain ⟨_, hO, hA, _⟩ := reader_mono q env f1 f2 h
  cases t <;> simp only [arrItem]
  · exact .rfl
  · exact .ite (hA _) (.ite (hO _ _) .rfl)
  · exact .rfl

/-- A value is read from a state: its token, then the container the token opens. -/
def item (q : Bool) (env : Env) (f : Nat) (s : St) : Out Json := (consumeToken env s).bind (arrItem q env f)

theorem item_mono (q : Bool) (env : Env) {f1 f2 : Nat} (h : f1 ≤ f2) (s : St) : Refines (item q env f1 s) (item q env f2 s) :=
  .bind .rfl (fun _ _ => arrItem_mono q env h _ _)

/-- `readNext` is `item`, as long as there is a value. -/
theorem readNext_item (q : Bool) (env : Env) (f : Nat) (s : St) :
    (∀ v s', item q env f s = .ret v s' → readNext q env (f + 1) s = .ret (some v) s') ∧
    (∀ e, item q env f s = .throw e → e.kind ≠ .notJson → readNext q env (f + 1) s = .throw e) ∧
    (∀ u, item q env f s = .uncaught u → readNext q env (f + 1) s = .uncaught u) := by
  rw [readNext_succ]
  unfold item
  cases consumeToken env s with
  | ret t s1 =>
    simp only [Out.bind]
    cases t with
    | val v => simp [arrItem]
    | nothing => simp [arrItem]
    | punct c =>
      simp only [arrItem]
      by_cases h1 : c = 91
      · rw [if_pos h1, if_neg (by omega), if_pos h1]
        refine ⟨?_, ?_, ?_⟩
        · intro v s' h; rw [h]
        · intro e h _; rw [h]
        · intro e h; rw [h]
      · rw [if_neg h1]
        by_cases h2 : c = 123
        · rw [if_pos h2, if_pos h2]
          refine ⟨?_, ?_, ?_⟩
          · intro v s' h; rw [h]
          · intro e h _; rw [h]
          · intro e h; rw [h]
        · rw [if_neg h2, if_neg h2, if_neg h1]
          simp
  | throw e => simp [Out.bind]
  | uncaught u => simp [Out.bind]
  | ub u => simp [Out.bind]
  | fuel => simp [Out.bind]

variable (q : Bool) (env : Env)

/-- What is proved of a value. -/
def ReadsD (d : Doc) : Prop :=
  ∀ w rest hist warns, Blank w → Follow d rest → ∃ f g h ws, (g = true ∨ rest = []) ∧ DupWarns ws (d.dups env.ascii) ∧
    item q env f ⟨w ++ d.text ++ rest, true, hist, warns⟩ = .ret (d.value env.ascii env.sort) ⟨rest, g, h, warns ++ ws⟩

/-- What is proved of the items of an array. -/
def ReadsI (its : Items) : Prop :=
  ∀ acc rest hist warns, ∃ f h ws, DupWarns ws (its.dups env.ascii) ∧
    (tokenLoop env (its.text ++ 93 :: rest) hist warns).bind (fun t s => arrayLoop q env f acc t s) =
      .ret (.arr (acc ++ its.values env.ascii env.sort)) ⟨rest, true, h, warns ++ ws⟩

/-- What is proved of the members of an object. -/
def ReadsM (ms : Members) : Prop :=
  ∀ r rest hist warns, (keys (r.getD [])).Nodup → okM env.ascii env.strictOr (keys (r.getD [])) ms →
    ∃ f h ws, DupWarns ws (repeatsAfter (keys (r.getD [])) (ms.keys env.ascii) + ms.dups env.ascii) ∧
    objectLoop q env f r ⟨ms.text ++ 125 :: rest, true, hist, warns⟩ =
      .ret (.obj (addAll env (r.getD []) (ms.entries env.ascii env.sort))) ⟨rest, true, h, warns ++ ws⟩

theorem readsD_prim {d : Doc} (v : Json) (hd : d.dups env.ascii = 0) (hv : d.value env.ascii env.sort = v)
    (h : ∀ rest hist warns, Follow d rest → ∃ g h, (g = true ∨ rest = []) ∧
      tokenLoop env (d.text ++ rest) hist warns = .ret (.val v) ⟨rest, g, h, warns⟩) : ReadsD q env d := by
  intro w rest hist warns hw hf
  obtain ⟨g, h, hg, e⟩ := h rest (w.foldl LHist.put hist) warns hf
  refine ⟨0, g, h, [], hg, by rw [hd]; exact .nil, ?_⟩
  unfold item
  rw [consumeToken_good, List.append_assoc, skip_blank hw, e]
  simp [Out.bind, arrItem, hv]

/-- One member: key, colon, value; then the separator decides. -/
theorem member_step (r : Option Entries) (w1 w2 : Bytes) (k : List StrItem) (rest : Bytes) (hist : LHist) (warns : List Exn)
    (h1 : Blank w1) (hk : strWF env.ascii k) (h2 : Blank w2) :
    ∃ hist', ∀ f, objectLoop q env (f + 1) r ⟨w1 ++ (strText k ++ (w2 ++ (58 :: rest))), true, hist, warns⟩ =
      (if (Json.contains (r.getD []) (strValue env.ascii k) && env.strictOr) = true then
        .throw ⟨.doubleKey (strValue env.ascii k), hist'⟩
      else (readNext q env f (if Json.contains (r.getD []) (strValue env.ascii k)
          then warnDup ⟨rest, true, hist', warns⟩ (strValue env.ascii k) else ⟨rest, true, hist', warns⟩)).bind
        (objChild q env f (dropKey (r.getD []) (strValue env.ascii k)) (strValue env.ascii k)) : Out Json) := by
  obtain ⟨ha, e1⟩ := string_tok env k hk (w2 ++ (58 :: rest)) (w1.foldl LHist.put hist) warns
  refine ⟨(w2.foldl LHist.put ha).put 58, fun f => ?_⟩
  rw [objectLoop_succ, consumeToken_good, skip_blank h1, e1]
  simp only [Out.bind, objKey]
  rw [consumeToken_good, skip_blank h2, punct_tok (by decide)]
  simp only [Out.bind, objColon]
  rw [if_neg (by simp)]

theorem readNext_of_item {f : Nat} {s : St} {v : Json} {s' : St} (h : item q env f s = .ret v s') :
    ∀ f', f + 1 ≤ f' → readNext q env f' s = .ret (some v) s' := by
  intro f' hf
  have h1 := (readNext_item q env f s).1 v s' h
  rw [← h1]
  exact (reader_mono q env _ _ hf).1 s (by rw [h1]; simp)

theorem member_ok (d : Doc) (hd : ReadsD q env d) (r : Option Entries) (w1 w2 w3 : Bytes) (k : List StrItem) (rest : Bytes) (hist : LHist) (warns : List Exn)
    (h1 : Blank w1) (hk : strWF env.ascii k) (h2 : Blank w2) (h3 : Blank w3) (hf : Follow d rest) (hr : rest ≠ [])
    (hok : env.strictOr = true → strValue env.ascii k ∉ keys (r.getD [])) :
    ∃ f h ws, DupWarns ws ((if strValue env.ascii k ∈ keys (r.getD []) then 1 else 0) + d.dups env.ascii) ∧ ∀ f', f ≤ f' →
      objectLoop q env (f' + 1) r ⟨w1 ++ (strText k ++ (w2 ++ (58 :: (w3 ++ d.text ++ rest)))), true, hist, warns⟩ =
        (tokenLoop env rest h (warns ++ ws)).bind (objSep q env f'
          (addEntry env (dropKey (r.getD []) (strValue env.ascii k)) (strValue env.ascii k) (d.value env.ascii env.sort))) := by
  obtain ⟨ha, e1⟩ := member_step q env r w1 w2 k (w3 ++ d.text ++ rest) hist warns h1 hk h2
  by_cases hc : strValue env.ascii k ∈ keys (r.getD [])
  · have hst : env.strictOr = false := by
      cases h : env.strictOr
      · rfl
      · exact absurd hc (hok h)
    have hcon := (contains_iff _ _).mpr hc
    obtain ⟨f, g, h, ws, hg, hws, e⟩ := hd w3 rest ha (warns ++ [⟨.doubleKey (strValue env.ascii k), ha⟩]) h3 hf
    have hg : g = true := by rcases hg with hg | hg; exact hg; exact absurd hg hr
    subst hg
    refine ⟨f + 1, h, [⟨.doubleKey (strValue env.ascii k), ha⟩] ++ ws, ?_, ?_⟩
    · rw [if_pos hc]
      exact DupWarns.append ⟨rfl, by simp⟩ hws
    · intro f' hf'
      rw [e1, hcon, hst]
      simp only [Bool.and_false, Bool.false_eq_true, if_false, if_true, warnDup]
      rw [readNext_of_item q env e f' hf']
      simp only [Out.bind, objChild]
      rw [consumeToken_good, List.append_assoc]
  · have hcon := (contains_false_iff _ _).mpr hc
    obtain ⟨f, g, h, ws, hg, hws, e⟩ := hd w3 rest ha warns h3 hf
    have hg : g = true := by rcases hg with hg | hg; exact hg; exact absurd hg hr
    subst hg
    refine ⟨f + 1, h, ws, ?_, ?_⟩
    · rw [if_neg hc, Nat.zero_add]; exact hws
    · intro f' hf'
      rw [e1, hcon]
      simp only [Bool.false_and, Bool.false_eq_true, if_false]
      rw [readNext_of_item q env e f' hf']
      simp only [Out.bind, objChild]
      rw [consumeToken_good]

theorem item_ok (d : Doc) (hd : ReadsD q env d) (w rest : Bytes) (hist : LHist) (warns : List Exn) (acc : List Json)
    (hw : Blank w) (hf : Follow d rest) (hr : rest ≠ []) :
    ∃ f h ws, DupWarns ws (d.dups env.ascii) ∧ ∀ f', f ≤ f' →
      (tokenLoop env (w ++ d.text ++ rest) hist warns).bind (fun t s => arrayLoop q env (f' + 1) acc t s) =
        (tokenLoop env rest h (warns ++ ws)).bind (arrSep q env f' (acc ++ [d.value env.ascii env.sort])) := by
  obtain ⟨f, g, h, ws, hg, hws, e⟩ := hd w rest hist warns hw hf
  have hg : g = true := by rcases hg with hg | hg; exact hg; exact absurd hg hr
  subst hg
  refine ⟨f, h, ws, hws, fun f' hf' => ?_⟩
  have e' : item q env f' ⟨w ++ d.text ++ rest, true, hist, warns⟩ = _ := (item_mono q env hf' _ (by rw [e]; simp)).trans e
  have : ∀ o : Out Tok, o.bind (fun t s => arrayLoop q env (f' + 1) acc t s) =
      (o.bind (arrItem q env f')).bind (fun child s => (consumeToken env s).bind (arrSep q env f' (acc ++ [child]))) := by
    intro o; rw [bind_assoc]; congr 1
  rw [this]
  unfold item at e'
  rw [consumeToken_good] at e'
  rw [e']
  simp only [Out.bind]
  rw [consumeToken_good]

mutual
theorem readsD : (d : Doc) → d.WF env.ascii → okD env.ascii env.strictOr d → ReadsD q env d
  | .str items, hwf, _ => by
    refine readsD_prim q env (.str (strValue env.ascii items)) rfl rfl (fun rest hist warns _ => ?_)
    obtain ⟨h, e⟩ := string_tok env items hwf rest hist warns
    exact ⟨true, h, Or.inl rfl, e⟩
  | .true, _, _ => by
    refine readsD_prim q env (.bool Bool.true) rfl rfl (fun rest hist warns hf => ?_)
    obtain ⟨g, h, hg, _, e⟩ := bool_tok env Bool.true rest hf hist warns
    exact ⟨g, h, hg, e⟩
  | .false, _, _ => by
    refine readsD_prim q env (.bool Bool.false) rfl rfl (fun rest hist warns hf => ?_)
    obtain ⟨g, h, hg, _, e⟩ := bool_tok env Bool.false rest hf hist warns
    exact ⟨g, h, hg, e⟩
  | .null, _, _ => by
    refine readsD_prim q env .null rfl rfl (fun rest hist warns hf => ?_)
    obtain ⟨h, e⟩ := null_tok env rest hist warns
    exact ⟨true, h, Or.inl rfl, e⟩
  | .int neg ds, hwf, hok => by
    refine readsD_prim q env _ rfl rfl (fun rest hist warns hf => ?_)
    obtain ⟨g, h, hg, _, e⟩ := (int_tok env neg ds hwf rest hf hist warns).1 hok
    exact ⟨g, h, hg, e⟩
  | .frac neg ds fs, hwf, _ => by
    refine readsD_prim q env _ rfl rfl (fun rest hist warns hf => ?_)
    obtain ⟨g, h, hg, _, e⟩ := frac_tok env neg ds fs hwf.1 hwf.2 rest hf hist warns
    exact ⟨g, h, hg, e⟩
  | .arr0 w', hwf, _ => by
    intro w rest hist warns hw _
    have e : w ++ Doc.text (.arr0 w') ++ rest = w ++ (91 :: (w' ++ (93 :: rest))) := by simp [Doc.text]
    refine ⟨1, Bool.true, (w'.foldl LHist.put ((w.foldl LHist.put hist).put 91)).put 93, [], Or.inl rfl, .nil, ?_⟩
    unfold item
    rw [e, consumeToken_good, skip_blank hw, punct_tok (by decide)]
    simp only [Out.bind, arrItem, if_true]
    rw [readArray_succ, consumeToken_good, skip_blank hwf, punct_tok (by decide)]
    simp [Out.bind, Doc.value]
  | .arr its, hwf, hok => by
    intro w rest hist warns hw _
    have e : w ++ Doc.text (.arr its) ++ rest = w ++ (91 :: (its.text ++ (93 :: rest))) := by simp [Doc.text]
    obtain ⟨f, h, ws, hws, e1⟩ := readsI its hwf hok [] rest ((w.foldl LHist.put hist).put 91) warns
    refine ⟨f + 1, Bool.true, h, ws, Or.inl rfl, hws, ?_⟩
    unfold item
    rw [e, consumeToken_good, skip_blank hw, punct_tok (by decide)]
    simp only [Out.bind, arrItem, if_true]
    rw [readArray_succ, consumeToken_good]
    simp only [List.nil_append] at e1
    rw [show Doc.value env.ascii env.sort (.arr its) = .arr (its.values env.ascii env.sort) from rfl, ← e1]
    cases ht : tokenLoop env (its.text ++ 93 :: rest) ((w.foldl LHist.put hist).put 91) warns with
    | ret t s1 =>
      cases t with
      | punct c =>
        simp only [Out.bind]
        by_cases hc : c = 93
        · -- the first token of a non-empty array is no closing bracket
          exfalso
          subst hc
          rw [ht] at e1
          simp only [Out.bind] at e1
          cases f with
          | zero => simp [arrayLoop] at e1
          | succ f => rw [arrayLoop_succ] at e1; simp [arrItem, Out.bind] at e1
        · rw [if_neg hc]
      | _ => rfl
    | _ => rfl
  | .obj0 w', hwf, _ => by
    intro w rest hist warns hw _
    have e : w ++ Doc.text (.obj0 w') ++ rest = w ++ (123 :: (w' ++ (125 :: rest))) := by simp [Doc.text]
    refine ⟨1, Bool.true, (w'.foldl LHist.put ((w.foldl LHist.put hist).put 123)).put 125, [], Or.inl rfl, .nil, ?_⟩
    unfold item
    rw [e, consumeToken_good, skip_blank hw, punct_tok (by decide)]
    simp only [Out.bind, arrItem]
    rw [if_neg (by decide), if_pos True.intro, objectLoop_succ, consumeToken_good, skip_blank hwf, punct_tok (by decide)]
    simp [Out.bind, Doc.value, objKey]
  | .obj ms, hwf, hok => by
    intro w rest hist warns hw _
    have e : w ++ Doc.text (.obj ms) ++ rest = w ++ (123 :: (ms.text ++ (125 :: rest))) := by simp [Doc.text]
    obtain ⟨f, h, ws, hws, e1⟩ := readsM ms hwf none rest ((w.foldl LHist.put hist).put 123) warns List.nodup_nil hok
    refine ⟨f, Bool.true, h, ws, Or.inl rfl, hws, ?_⟩
    unfold item
    rw [e, consumeToken_good, skip_blank hw, punct_tok (by decide)]
    simp only [Out.bind, arrItem]
    rw [if_neg (by decide), if_pos True.intro, e1]
    simp only [Option.getD_none, addAll_nil, Doc.value]
theorem readsI : (its : Items) → its.WF env.ascii → okI env.ascii env.strictOr its → ReadsI q env its
  | .one w1 d w2, hwf, hok => by
    intro acc rest hist warns
    obtain ⟨h1, hd, h2⟩ := hwf
    obtain ⟨f, h, ws, hws, e⟩ := item_ok q env d (readsD d hd hok) w1 (w2 ++ 93 :: rest) hist warns acc h1
      (follow_sep d h2 (Or.inr (Or.inl rfl)) rest) (by simp)
    refine ⟨f + 1, (w2.foldl LHist.put h).put 93, ws, hws, ?_⟩
    have e2 : Items.text (.one w1 d w2) ++ 93 :: rest = w1 ++ d.text ++ (w2 ++ 93 :: rest) := by simp [Items.text]
    rw [e2, e f (Nat.le_refl _), skip_blank h2, punct_tok (by decide)]
    simp [Out.bind, arrSep, Items.values]
  | .more w1 d w2 its, hwf, hok => by
    intro acc rest hist warns
    obtain ⟨h1, hd, h2, hi⟩ := hwf
    obtain ⟨f, h, ws, hws, e⟩ := item_ok q env d (readsD d hd hok.1) w1 (w2 ++ 44 :: (its.text ++ 93 :: rest)) hist warns acc h1
      (follow_sep d h2 (Or.inl rfl) _) (by simp)
    obtain ⟨f2, h', ws', hws', e'⟩ := readsI its hi hok.2 (acc ++ [d.value env.ascii env.sort]) rest ((w2.foldl LHist.put h).put 44) (warns ++ ws)
    refine ⟨max f f2 + 1, h', ws ++ ws', hws.append hws', ?_⟩
    have e2 : Items.text (.more w1 d w2 its) ++ 93 :: rest = w1 ++ d.text ++ (w2 ++ 44 :: (its.text ++ 93 :: rest)) := by simp [Items.text]
    rw [e2, e (max f f2) (by omega), skip_blank h2, punct_tok (by decide)]
    simp only [Out.bind, arrSep]
    rw [if_neg (by decide), if_pos True.intro, consumeToken_good]
    refine ((Refines.bind .rfl (fun t s => (reader_mono q env f2 (max f f2) (by omega)).2.2.2 _ t s)) (by rw [e']; simp)).trans ?_
    rw [e']
    simp [Items.values, List.append_assoc]
theorem readsM : (ms : Members) → ms.WF env.ascii → ReadsM q env ms
  | .one w1 k w2 w3 d w4, hwf => by
    intro r rest hist warns hn hok
    obtain ⟨h1, hk, h2, h3, hd, h4⟩ := hwf
    obtain ⟨f, h, ws, hws, e⟩ := member_ok q env d (readsD d hd hok.2) r w1 w2 w3 k (w4 ++ 125 :: rest) hist warns h1 hk h2 h3
      (follow_sep d h4 (Or.inr (Or.inr rfl)) rest) (by simp) hok.1
    refine ⟨f + 1, (w4.foldl LHist.put h).put 125, ws, ?_, ?_⟩
    · simp only [Members.keys, repeatsAfter, Members.dups]; exact hws
    have e2 : Members.text (.one w1 k w2 w3 d w4) ++ 125 :: rest = w1 ++ (strText k ++ (w2 ++ (58 :: (w3 ++ d.text ++ (w4 ++ 125 :: rest))))) := by
      simp [Members.text]
    rw [e2, e f (Nat.le_refl _), skip_blank h4, punct_tok (by decide)]
    simp [Out.bind, objSep, Members.entries, addAll]
  | .more w1 k w2 w3 d w4 ms, hwf => by
    intro r rest hist warns hn hok
    obtain ⟨h1, hk, h2, h3, hd, h4, hm⟩ := hwf
    obtain ⟨f, h, ws, hws, e⟩ := member_ok q env d (readsD d hd hok.2.1) r w1 w2 w3 k (w4 ++ 44 :: (ms.text ++ 125 :: rest)) hist warns h1 hk h2 h3
      (follow_sep d h4 (Or.inl rfl) _) (by simp) hok.1
    obtain ⟨hn', hmem⟩ := addOne_nodup env (r.getD []) (strValue env.ascii k) (d.value env.ascii env.sort) hn
    obtain ⟨f2, h', ws', hws', e'⟩ := readsM ms hm
      (some (addEntry env (dropKey (r.getD []) (strValue env.ascii k)) (strValue env.ascii k) (d.value env.ascii env.sort)))
      rest ((w4.foldl LHist.put h).put 44) (warns ++ ws) hn' ((okM_congr _ _ hmem ms).mpr hok.2.2)
    refine ⟨max f f2 + 1, h', ws ++ ws', ?_, ?_⟩
    · have := hws.append hws'
      simp only [Option.getD_some] at this
      rw [repeatsAfter_congr hmem] at this
      simp only [Members.keys, repeatsAfter, Members.dups]
      have e : ∀ a b c d : Nat, a + b + (c + d) = a + c + (b + d) := by omega
      rwa [e] at this
    have e2 : Members.text (.more w1 k w2 w3 d w4 ms) ++ 125 :: rest =
        w1 ++ (strText k ++ (w2 ++ (58 :: (w3 ++ d.text ++ (w4 ++ 44 :: (ms.text ++ 125 :: rest)))))) := by
      simp [Members.text]
    rw [e2, e (max f f2) (by omega), skip_blank h4, punct_tok (by decide)]
    simp only [Out.bind, objSep]
    rw [if_neg (by decide)]
    refine ((reader_mono q env f2 (max f f2) (by omega)).2.1 _ _ (by rw [e']; simp)).trans ?_
    rw [e']
    simp [Members.entries, addAll, List.append_assoc]
end

end Verif.Lemmas.Quiet
