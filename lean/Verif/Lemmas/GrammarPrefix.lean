import Verif.Lemmas.GrammarFail
import Verif.Lemmas.ReaderStrict
/-!
# Lemmas: proper prefixes of well-formed texts
-/
namespace Verif.Lemmas
open Verif.Model Verif.Spec

/-- If the outcome is a return, the stream has ended. -/
def Dead {α : Type} (o : Out α) : Prop := o.Post (fun _ s => s.good = false) (fun _ => True)
/-- The outcome is no return. -/
def Never {α : Type} (o : Out α) : Prop := o.Post (fun _ _ => False) (fun _ => True)

theorem Never.dead {α : Type} {o : Out α} (h : Never o) : Dead o := Post.mono h (fun _ _ h => h.elim) (fun _ h => h)

theorem Never.of_fails {α : Type} {o : Out α} (h : ∀ a s, o ≠ .ret a s) : Never o := by
  cases o with
  | ret a s => exact absurd rfl (h a s)
  | _ => trivial

theorem Rejects.never {α : Type} {st : Bool} {p : Prop} {o : Out α} (h : Rejects st p o) : Never o := by
  rcases h with ⟨rfl, h⟩ | ⟨hs, k, h, rfl⟩ <;> trivial

/-- Less fuel never turns a failure into a return. -/
theorem Never.of_refines {α : Type} {o o' : Out α} (h : Never o') (hr : Refines o o') : Never o := by
  by_cases hf : o = .fuel
  · subst hf; trivial
  · rw [hr hf] at h; exact h

/-- A token at which the stream ended is neither a string nor punctuation. -/
def EndTok (t : Tok) (s : St) : Prop := s.good = false → (∀ c, t ≠ .punct c) ∧ ∀ x, t ≠ .val (.str x)

variable (env : Env)

theorem stringLoop_end (rest : Bytes) (hist : LHist) (warns : List Exn) (acc : Bytes) :
    (stringLoop env rest hist warns acc).Post EndTok (fun _ => True) := by
  fun_induction stringLoop env rest hist warns acc
  all_goals first
    | assumption
    | trivial
    | (simp only [Out.Post, EndTok]; simp)

theorem boolLoop_end (fl : Byte) (rest : Bytes) (hist : LHist) (warns : List Exn) (l r : Bytes) :
    (boolLoop env fl rest hist warns l r).Post EndTok (fun _ => True) := by
  have he : ∀ s c l r, (boolEnd env s c l r).Post EndTok (fun _ => True) := by
    intro s c l r
    unfold boolEnd
    split
    · trivial
    · split
      · trivial
      · split
        · trivial
        · simp [Out.Post, EndTok]
  fun_induction boolLoop env fl rest hist warns l r
  all_goals first
    | assumption
    | trivial
    | exact he _ _ _ _

theorem intResult_nostr (t : Bytes) (v : Json) (h : intResult t = .inr v) : ∀ x, v ≠ .str x := by
  unfold intResult at h
  split at h
  · simp at h
  · split at h
    · simp at h; subst h; simp
    · split at h
      · simp at h; subst h; simp
      · simp at h

theorem numberLoop_endtok (rest : Bytes) (hist : LHist) (warns : List Exn) (d : Bool) (text : Bytes) :
    (numberLoop rest hist warns d text).Post EndTok (fun _ => True) := by
  have he : ∀ s c d text, (numberEnd s c d text).Post EndTok (fun _ => True) := by
    intro s c d text
    unfold numberEnd
    dsimp only
    split
    · simp [Out.Post, EndTok]
    · split
      · trivial
      · rename_i v hv
        simp only [Out.Post, EndTok]
        intro _
        exact ⟨by simp, fun x hx => intResult_nostr _ _ hv x (by simpa using hx)⟩
  fun_induction numberLoop rest hist warns d text
  all_goals first
    | assumption
    | exact he _ _ _ _

theorem consumeNull_end (s : St) (c : Byte) : (consumeNull env s c).Post EndTok (fun _ => True) := by
  unfold consumeNull
  split
  · split
    · trivial
    · dsimp only
      split
      · split
        · simp [Out.Post, EndTok]
        · split
          · trivial
          · split
            · trivial
            · simp [Out.Post, EndTok]
      · trivial
  · split
    · trivial
    · simp [Out.Post, EndTok]

theorem tokenLoop_end (rest : Bytes) (hist : LHist) (warns : List Exn) :
    (tokenLoop env rest hist warns).Post EndTok (fun _ => True) := by
  fun_induction tokenLoop env rest hist warns
  all_goals first
    | assumption
    | trivial
    | exact stringLoop_end env _ _ _ _
    | exact boolLoop_end env _ _ _ _ _ _
    | exact consumeNull_end env _ _
    | exact numberLoop_endtok _ _ _ _ _
    | (simp +zetaDelta only [Out.Post, EndTok]; simp)

/-- A proper prefix of a token never yields a token before the end of the stream. -/
theorem token_prefix {full : Bytes} (hfull : ∀ hist warns t s, tokenLoop env full hist warns = .ret t s → s.rest = [])
    {q : Bytes} (hq : q <+: full) (hne : q ≠ full) (hist : LHist) (warns : List Exn) :
    (tokenLoop env q hist warns).Post (fun t s => s.good = false ∧ EndTok t s) (fun _ => True) := by
  have h := tokenLoop_end env q hist warns
  cases ht : tokenLoop env q hist warns with
  | ret t s =>
    rw [ht] at h
    refine ⟨?_, h⟩
    cases hg : s.good with
    | false => rfl
    | true =>
      exfalso
      obtain ⟨x, rfl⟩ := hq
      have := (consumeToken_extend (env := env) x ⟨q, true, hist, warns⟩ t s ht hg).2
      have := hfull hist warns t _ this
      simp only [St.extend, List.append_eq_nil_iff] at this
      exact hne (by simp [this.2])
  | _ => trivial

theorem prefix_split {p a b : Bytes} (h : p <+: a ++ b) : (p <+: a ∧ p ≠ a) ∨ ∃ q, p = a ++ q ∧ q <+: b := by
  rcases List.prefix_or_prefix_of_prefix h (List.prefix_append a b) with h1 | h1
  · by_cases he : p = a
    · exact Or.inr ⟨[], by simp [he], List.nil_prefix⟩
    · exact Or.inl ⟨h1, he⟩
  · obtain ⟨q, rfl⟩ := h1
    exact Or.inr ⟨q, rfl, (List.prefix_append_right_inj a).mp h⟩

theorem prefix_cons {p : Bytes} {c : Byte} {b : Bytes} (h : p <+: c :: b) : p = [] ∨ ∃ q, p = c :: q ∧ q <+: b := by
  cases p with
  | nil => exact Or.inl rfl
  | cons x q =>
    obtain ⟨e, h'⟩ := List.cons_prefix_cons.mp h
    exact Or.inr ⟨q, by rw [e], h'⟩

/-! ### After the end of the stream -/

theorem dead_tok {s : St} (h : s.good = false) : consumeToken env s = .ret .nothing s := by
  unfold consumeToken; rw [h]; rfl

theorem dead_arrSep {s : St} (h : s.good = false) (f : Nat) (acc : List Json) : Never ((consumeToken env s).bind (arrSep env f acc)) := by
  rw [dead_tok env h]; trivial

theorem dead_objectLoop {s : St} (h : s.good = false) (f : Nat) (r : Option Entries) : Never (objectLoop env f r s) := by
  cases f with
  | zero => trivial
  | succ f => rw [objectLoop_succ, dead_tok env h]; trivial

theorem dead_objSep {s : St} (h : s.good = false) (f : Nat) (es : Entries) : Never ((consumeToken env s).bind (objSep env f es)) := by
  rw [dead_tok env h]
  exact dead_objectLoop env h f _

/-- Only blanks are left. -/
theorem blank_tok {q : Bytes} (hq : Blank q) {g : Bool} (hg : g = true ∨ q = []) (hist : LHist) (warns : List Exn) :
    ∃ s, s.good = false ∧ consumeToken env ⟨q, g, hist, warns⟩ = .ret .nothing s := by
  cases g with
  | false => exact ⟨_, rfl, dead_tok env rfl⟩
  | true => exact ⟨_, rfl, blank_eof hq env hist warns⟩

theorem readNext_dead {f : Nat} {s : St} (h : Dead (item env f s)) :
    (readNext env (f + 1) s).Post (fun v s' => v ≠ none → s'.good = false) (fun _ => True) := by
  rw [readNext_succ]
  unfold item at h
  revert h
  cases consumeToken env s with
  | ret t s1 =>
    simp only [Out.bind]
    cases t with
    | val v => intro h _; exact h
    | nothing => intro _ h; exact absurd rfl h
    | punct c =>
      simp only [arrItem]
      by_cases h1 : c = 91
      · rw [if_pos h1, if_neg (by omega), if_pos h1]
        intro h
        exact Post.bind h (fun _ _ h _ => h)
      · rw [if_neg h1]
        by_cases h2 : c = 123
        · rw [if_pos h2, if_pos h2]
          intro h
          exact Post.bind h (fun _ _ h _ => h)
        · rw [if_neg h2, if_neg h2, if_neg h1]
          intro _ h; exact absurd rfl h
  | _ => intro _; trivial

/-! ### Proper prefixes -/

def PreD (d : Doc) : Prop :=
  ∀ w p hist warns f, Blank w → p <+: d.text → p ≠ d.text →
    Dead (item env f ⟨w ++ p, true, hist, warns⟩) ∧ (d.IsContainer → Never (item env f ⟨w ++ p, true, hist, warns⟩))

def PreI (its : Items) : Prop :=
  ∀ acc p hist warns f, p <+: its.text → Never ((tokenLoop env p hist warns).bind (fun t s => arrayLoop env f acc t s))

def PreM (ms : Members) : Prop :=
  ∀ r p hist warns f, (keys (r.getD [])).Nodup → p <+: ms.text → Never (objectLoop env f r ⟨p, true, hist, warns⟩)

/-- A primitive: its token. -/
theorem preD_prim (d : Doc) (hc : ¬ d.IsContainer)
    (hfull : ∀ hist warns t s, tokenLoop env d.text hist warns = .ret t s → s.rest = []) : PreD env d := by
  intro w p hist warns f hw hp hne
  refine ⟨?_, fun h => absurd h hc⟩
  unfold item
  rw [consumeToken_good, skip_blank hw]
  refine Post.bind (token_prefix env hfull hp hne _ _) ?_
  rintro t s ⟨hg, he⟩
  cases t with
  | val v => exact hg
  | punct c => exact absurd rfl ((he hg).1 c)
  | nothing => trivial

/-- Only a blank prefix of the items is there. -/
theorem arr_blank {q : Bytes} (hq : Blank q) (hist : LHist) (warns : List Exn) (f : Nat) (acc : List Json) :
    Never ((tokenLoop env q hist warns).bind (fun t s => arrayLoop env f acc t s)) := by
  rw [blank_eof hq]
  simp only [Out.bind]
  cases f with
  | zero => trivial
  | succ f => rw [arrayLoop_succ]; trivial

/-- An item of which a proper prefix is there. -/
theorem arr_item_prefix {d : Doc} (hd : PreD env d) {w p : Bytes} (hw : Blank w) (hp : p <+: d.text) (hne : p ≠ d.text)
    (hist : LHist) (warns : List Exn) (f : Nat) (acc : List Json) :
    Never ((tokenLoop env (w ++ p) hist warns).bind (fun t s => arrayLoop env f acc t s)) := by
  cases f with
  | zero => cases tokenLoop env (w ++ p) hist warns <;> trivial
  | succ f =>
    rw [array_bind]
    have := (hd w p hist warns f hw hp hne).1
    unfold item at this
    rw [consumeToken_good] at this
    exact Post.bind this (fun v s hg => dead_arrSep env hg f _)

/-- The outcome for an item that is there, with any fuel. -/
theorem item_all (d : Doc) (hwf : d.WF env.ascii) (w rest : Bytes) (hist : LHist) (warns : List Exn) (f : Nat) (hw : Blank w)
    (hf : Follow d rest) :
    (item env f ⟨w ++ d.text ++ rest, true, hist, warns⟩).Post
      (fun _ s => s.rest = rest ∧ (s.good = true ∨ rest = [])) (fun _ => True) := by
  by_cases hfu : item env f ⟨w ++ d.text ++ rest, true, hist, warns⟩ = .fuel
  · rw [hfu]; trivial
  have hmax : ∀ g, item env (max f g) ⟨w ++ d.text ++ rest, true, hist, warns⟩ = item env f ⟨w ++ d.text ++ rest, true, hist, warns⟩ :=
    fun g => item_mono env (by omega) _ hfu
  by_cases hok : okD env.ascii env.strictOr d
  · obtain ⟨f0, g, h, ws, hg, hws, e⟩ := readsD env d hwf hok w rest hist warns hw hf
    have := item_mono env (show f0 ≤ max f f0 by omega) _ (by rw [e]; simp)
    rw [← hmax f0, this, e]
    exact ⟨rfl, hg⟩
  · obtain ⟨f0, h⟩ := failsD env d hwf hok w rest hist warns hw hf
    have := item_mono env (show f0 ≤ max f f0 by omega) _ h.ne_fuel
    rw [← hmax f0, this]
    exact Post.mono h.never (fun _ _ h => h.elim) (fun _ h => h)

theorem follow_blank (d : Doc) {q : Bytes} (hq : Blank q) : Follow d q := by
  cases q with
  | nil => cases d <;> simp [Follow, NumFollow, BoolFollow]
  | cons c q =>
    have h := follow_sep d (w := [c]) (fun x hx => hq x (by simp at hx; simp [hx])) (Or.inl rfl) []
    cases d <;> first | trivial | (intro x r hx; simp at hx; exact h x [44] (by simp [hx.1]))

/-- A complete item, then only blanks. -/
theorem arr_item_blank {d : Doc} (hwf : d.WF env.ascii) {w q : Bytes} (hw : Blank w) (hq : Blank q)
    (hist : LHist) (warns : List Exn) (f : Nat) (acc : List Json) :
    Never ((tokenLoop env (w ++ d.text ++ q) hist warns).bind (fun t s => arrayLoop env f acc t s)) := by
  cases f with
  | zero => cases tokenLoop env (w ++ d.text ++ q) hist warns <;> trivial
  | succ f =>
    rw [array_bind]
    have := item_all env d hwf w q hist warns f hw (follow_blank d hq)
    unfold item at this
    rw [consumeToken_good] at this
    refine Post.bind this ?_
    rintro v ⟨r, g, h, ws⟩ ⟨hr, hg⟩
    dsimp only at hr hg
    subst hr
    obtain ⟨s', hs', e⟩ := blank_tok env hq hg h ws
    rw [e]; trivial

theorem member_child (r : Option Entries) {w1 w2 : Bytes} {k : List StrItem} (rest : Bytes) (hist : LHist) (warns : List Exn)
    (h1 : Blank w1) (hk : strWF env.ascii k) (h2 : Blank w2) (f : Nat)
    (h : ∀ h ws f' es, Never ((readNext env f' ⟨rest, true, h, ws⟩).bind (objChild env f' es (strValue env.ascii k)))) :
    Never (objectLoop env f r ⟨w1 ++ (strText k ++ (w2 ++ (58 :: rest))), true, hist, warns⟩) := by
  cases f with
  | zero => trivial
  | succ f =>
    obtain ⟨ha, e1⟩ := member_step env r w1 w2 k rest hist warns h1 hk h2
    rw [e1]
    split
    · trivial
    · split
      · exact h _ _ _ _
      · exact h _ _ _ _

/-- The text of a member, and only a prefix of it is there. -/
theorem member_prefix {d : Doc} (hd : PreD env d) (hwf : d.WF env.ascii) (r : Option Entries) {w1 w2 w3 w4 : Bytes} {k : List StrItem}
    (h1 : Blank w1) (hk : strWF env.ascii k) (h2 : Blank w2) (h3 : Blank w3) (h4 : Blank w4) {p : Bytes}
    (hp : p <+: w1 ++ strText k ++ w2 ++ [58] ++ w3 ++ d.text ++ w4) (hist : LHist) (warns : List Exn) (f : Nat) :
    Never (objectLoop env f r ⟨p, true, hist, warns⟩) := by
  cases f with
  | zero => trivial
  | succ f =>
  simp only [List.append_assoc] at hp
  have hblank : ∀ q h ws, Blank q → Never (objectLoop env (f + 1) r ⟨q, true, h, ws⟩) := by
    intro q h ws hq
    rw [objectLoop_succ, consumeToken_good, blank_eof hq]; trivial
  replace hp := prefix_split hp
  rcases hp with ⟨hp, _⟩ | ⟨p, rfl, hp⟩
  · exact hblank _ _ _ (blank_prefix h1 hp)
  replace hp := prefix_split hp
  rcases hp with ⟨hp, hne⟩ | ⟨p, rfl, hp⟩
  · rw [objectLoop_succ, consumeToken_good, skip_blank h1]
    refine Post.bind (token_prefix env (full := strText k) ?_ hp hne _ _) ?_
    · intro hist warns t s ht
      obtain ⟨h', e⟩ := string_tok env k hk [] hist warns
      rw [List.append_nil, ht] at e
      simp only [Out.ret.injEq] at e
      rw [e.2]
    · rintro t s ⟨hg, he⟩
      cases t with
      | val v =>
        cases v with
        | str x => exact absurd rfl ((he hg).2 x)
        | _ => trivial
      | punct c => exact absurd rfl ((he hg).1 c)
      | nothing => trivial
  obtain ⟨h', e⟩ := string_tok env k hk p (w1.foldl LHist.put hist) warns
  replace hp := prefix_split hp
  rcases hp with ⟨hp', _⟩ | ⟨p, rfl, hp⟩
  · rw [objectLoop_succ, consumeToken_good, skip_blank h1, e]
    simp only [Out.bind, objKey]
    rw [consumeToken_good, blank_eof (blank_prefix h2 hp')]
    trivial
  rw [List.singleton_append] at hp
  replace hp := prefix_cons hp
  rcases hp with rfl | ⟨p, rfl, hp⟩
  · rw [objectLoop_succ, consumeToken_good, skip_blank h1, e]
    simp only [Out.bind, objKey]
    rw [consumeToken_good, blank_eof (by simpa using h2)]
    trivial
  refine member_child env r p hist warns h1 hk h2 _ ?_
  intro h ws f' es
  have key : ∀ q, (∀ g, (item env g ⟨q, true, h, ws⟩).Post (fun _ s => Blank s.rest ∧ (s.good = true ∨ s.rest = [])) (fun _ => True)) →
      Never ((readNext env f' ⟨q, true, h, ws⟩).bind (objChild env f' es (strValue env.ascii k))) := by
    intro q hi
    cases f' with
    | zero => trivial
    | succ g =>
      have hi := hi g
      rw [readNext_succ]
      unfold item at hi
      revert hi
      have fin : ∀ v s, (Blank s.rest ∧ (s.good = true ∨ s.rest = [])) → Never (objChild env (g + 1) es (strValue env.ascii k) (some v) s) := by
        intro v s hs
        simp only [objChild]
        obtain ⟨s', hs', e⟩ := blank_tok env hs.1 hs.2 s.hist s.warns
        rw [show (⟨s.rest, s.good, s.hist, s.warns⟩ : St) = s from rfl] at e
        rw [e]
        exact dead_objectLoop env hs' _ _
      cases consumeToken env ⟨q, true, h, ws⟩ with
      | ret t s1 =>
        simp only [Out.bind]
        cases t with
        | val v => intro hi; exact fin v s1 hi
        | nothing => intro _; trivial
        | punct c =>
          simp only [arrItem]
          by_cases h1 : c = 91
          · rw [if_pos h1, if_neg (by omega), if_pos h1]
            intro hi
            exact Post.bind (Post.bind (R' := fun v s => ∃ v', v = some v' ∧ Blank s.rest ∧ (s.good = true ∨ s.rest = [])) hi (fun a s hs => ⟨a, rfl, hs⟩))
              (fun v s ⟨v', e, hs⟩ => by rw [e]; exact fin v' s hs)
          · rw [if_neg h1]
            by_cases h2 : c = 123
            · rw [if_pos h2, if_pos h2]
              intro hi
              exact Post.bind (Post.bind (R' := fun v s => ∃ v', v = some v' ∧ Blank s.rest ∧ (s.good = true ∨ s.rest = [])) hi (fun a s hs => ⟨a, rfl, hs⟩))
                (fun v s ⟨v', e, hs⟩ => by rw [e]; exact fin v' s hs)
            · rw [if_neg h2, if_neg h2, if_neg h1]
              intro _; trivial
      | _ => intro _; trivial
  have keyDead : ∀ q, (∀ g, Dead (item env g ⟨q, true, h, ws⟩)) →
      Never ((readNext env f' ⟨q, true, h, ws⟩).bind (objChild env f' es (strValue env.ascii k))) := by
    intro q hi
    cases f' with
    | zero => trivial
    | succ g =>
      refine Post.bind (readNext_dead env (hi g)) ?_
      intro v s hs
      cases v with
      | none => trivial
      | some v => exact dead_objSep env (hs (by simp)) _ _
  replace hp := prefix_split hp
  rcases hp with ⟨hp, _⟩ | ⟨p, rfl, hp⟩
  · refine keyDead p (fun g => ?_)
    unfold item
    rw [consumeToken_good, blank_eof (blank_prefix h3 hp)]
    trivial
  replace hp := prefix_split hp
  rcases hp with ⟨hp, hne⟩ | ⟨p, rfl, hp⟩
  · exact keyDead _ (fun g => (hd w3 p h ws g h3 hp hne).1)
  · refine key _ (fun g => ?_)
    have hb := blank_prefix h4 hp
    rw [← List.append_assoc]
    refine Post.mono (item_all env d hwf w3 p h ws g h3 (follow_blank d hb)) ?_ (fun _ h => h)
    rintro _ s ⟨e, hg⟩
    rw [e]; exact ⟨hb, hg⟩

/-- The items of a non-empty array do not begin with a closing bracket. -/
theorem first_not_close (its : Items) (hwf : its.WF env.ascii) (hist : LHist) (warns : List Exn) (s : St) :
    tokenLoop env its.text hist warns ≠ .ret (.punct 93) s := by
  intro h
  have hg : s.good = true := by
    have := tokenLoop_end env its.text hist warns
    rw [h] at this
    cases hg : s.good
    · exact absurd rfl ((this hg).1 93)
    · rfl
  have h' := (consumeToken_extend (env := env) [93] ⟨its.text, true, hist, warns⟩ _ s h hg).2
  have h' : tokenLoop env (its.text ++ 93 :: []) hist warns = .ret (.punct 93) (St.extend s [93]) := h'
  have fin : ∀ f, (tokenLoop env (its.text ++ 93 :: []) hist warns).bind (fun t s => arrayLoop env f [] t s) = .fuel ∨
      ∃ e, (tokenLoop env (its.text ++ 93 :: []) hist warns).bind (fun t s => arrayLoop env f [] t s) = .throw e ∧ e.kind = .notJson := by
    intro f
    rw [h']
    simp only [Out.bind]
    cases f with
    | zero => exact Or.inl rfl
    | succ f => rw [arrayLoop_succ]; exact Or.inr ⟨_, rfl, rfl⟩
  by_cases hok : okI env.ascii env.strictOr its
  · obtain ⟨f, h, ws, hws, e⟩ := readsI env its hwf hok [] [] hist warns
    rcases fin f with h1 | ⟨_, h1, _⟩ <;> rw [e] at h1 <;> simp at h1
  · obtain ⟨f, hr⟩ := failsI env its hwf hok [] [] hist warns
    rcases fin f with h1 | ⟨e, h1, h2⟩
    · exact hr.ne_fuel h1
    · rw [h1] at hr
      rcases hr with ⟨hr, _⟩ | ⟨_, k, h, hr⟩
      · simp at hr
      · simp at hr; rw [hr] at h2; simp at h2

mutual
theorem preD : (d : Doc) → d.WF env.ascii → PreD env d
  | .str items, hwf => by
    refine preD_prim env _ (fun h => h) (fun hist warns t s ht => ?_)
    obtain ⟨h', e⟩ := string_tok env items hwf [] hist warns
    rw [List.append_nil] at e
    rw [show Doc.text (.str items) = strText items from rfl, e] at ht
    simp only [Out.ret.injEq] at ht
    rw [← ht.2]
  | .true, _ => by
    refine preD_prim env _ (fun h => h) (fun hist warns t s ht => ?_)
    obtain ⟨g, h, hg, _, e⟩ := bool_tok env Bool.true [] (by simp [BoolFollow]) hist warns
    rw [show Doc.text .true = (if Bool.true then b!"true" else b!"false") ++ [] from rfl, e] at ht
    simp only [Out.ret.injEq] at ht
    rw [← ht.2]
  | .false, _ => by
    refine preD_prim env _ (fun h => h) (fun hist warns t s ht => ?_)
    obtain ⟨g, h, hg, _, e⟩ := bool_tok env Bool.false [] (by simp [BoolFollow]) hist warns
    rw [show Doc.text .false = (if Bool.false then b!"true" else b!"false") ++ [] from rfl, e] at ht
    simp only [Out.ret.injEq] at ht
    rw [← ht.2]
  | .null, _ => by
    refine preD_prim env _ (fun h => h) (fun hist warns t s ht => ?_)
    obtain ⟨h, e⟩ := null_tok env [] hist warns
    rw [show Doc.text .null = b!"null" ++ [] from rfl, e] at ht
    simp only [Out.ret.injEq] at ht
    rw [← ht.2]
  | .int neg ds, hwf => by
    refine preD_prim env _ (fun h => h) (fun hist warns t s ht => ?_)
    have := int_tok env neg ds hwf [] (by simp [NumFollow]) hist warns
    rw [List.append_nil] at this
    rw [show Doc.text (.int neg ds) = intText neg ds from rfl] at ht
    by_cases hfit : FitsLong (intValue neg ds)
    · obtain ⟨g, h, hg, _, e⟩ := this.1 hfit
      rw [e] at ht
      simp only [Out.ret.injEq] at ht
      rw [← ht.2]
    · rw [this.2 hfit] at ht; simp at ht
  | .frac neg ds fs, hwf => by
    refine preD_prim env _ (fun h => h) (fun hist warns t s ht => ?_)
    obtain ⟨g, h, hg, _, e⟩ := frac_tok env neg ds fs hwf.1 hwf.2 [] (by simp [NumFollow]) hist warns
    rw [List.append_nil] at e
    rw [show Doc.text (.frac neg ds fs) = intText neg ds ++ [46] ++ fs from rfl, e] at ht
    simp only [Out.ret.injEq] at ht
    rw [← ht.2]
  | .arr0 w', hwf => by
    intro w p hist warns f hw hp hne
    have : Never (item env f ⟨w ++ p, Bool.true, hist, warns⟩) := by
      unfold item
      rw [consumeToken_good, skip_blank hw]
      replace hp := prefix_cons hp
      rcases hp with rfl | ⟨p, rfl, hp⟩
      · trivial
      rw [punct_tok (by decide)]
      simp only [Out.bind, arrItem, if_true]
      cases f with
      | zero => trivial
      | succ f =>
        rw [readArray_succ, consumeToken_good]
        replace hp := prefix_split hp
        rcases hp with ⟨hp, _⟩ | ⟨p, rfl, hp⟩
        · rw [blank_eof (blank_prefix hwf hp)]
          simp only [Out.bind]
          cases f with
          | zero => trivial
          | succ f => rw [arrayLoop_succ]; trivial
        replace hp := prefix_cons hp
        rcases hp with rfl | ⟨p, rfl, hp⟩
        · rw [blank_eof (by simpa using (show Blank w' from hwf))]
          simp only [Out.bind]
          cases f with
          | zero => trivial
          | succ f => rw [arrayLoop_succ]; trivial
        · have : p = [] := List.prefix_nil.mp hp
          subst this
          exact absurd (by simp [Doc.text]) hne
    exact ⟨this.dead, fun _ => this⟩
  | .arr its, hwf => by
    intro w p hist warns f hw hp hne
    have : Never (item env f ⟨w ++ p, Bool.true, hist, warns⟩) := by
      unfold item
      rw [consumeToken_good, skip_blank hw]
      replace hp := prefix_cons hp
      rcases hp with rfl | ⟨p, rfl, hp⟩
      · trivial
      rw [punct_tok (by decide)]
      simp only [Out.bind, arrItem, if_true]
      have hp' : p <+: its.text := by
        replace hp := prefix_split hp
        rcases hp with ⟨hp, _⟩ | ⟨p, rfl, hp⟩
        · exact hp
        · replace hp := prefix_cons hp
          rcases hp with rfl | ⟨p, rfl, hp⟩
          · simp
          · have : p = [] := List.prefix_nil.mp hp
            subst this
            exact absurd (by simp [Doc.text]) hne
      cases f with
      | zero => trivial
      | succ f =>
        rw [readArray_succ, consumeToken_good]
        have e1 := preI its hwf [] p ((w.foldl LHist.put hist).put 91) warns f hp'
        revert e1
        cases ht : tokenLoop env p ((w.foldl LHist.put hist).put 91) warns with
        | ret t s1 =>
          cases t with
          | punct c =>
            intro e1
            simp only [Out.bind] at e1 ⊢
            by_cases hc : c = 93
            · -- the items do not begin with a closing bracket
              exfalso
              subst hc
              have hg : s1.good = Bool.true := by
                have := tokenLoop_end env p ((w.foldl LHist.put hist).put 91) warns
                rw [ht] at this
                cases hg : s1.good
                · exact absurd rfl ((this hg).1 93)
                · rfl
              obtain ⟨x, hx⟩ := hp'
              have hfull := (consumeToken_extend (env := env) x ⟨p, Bool.true, _, warns⟩ _ s1 ht hg).2
              simp only [St.extend, hx] at hfull
              exact first_not_close env its hwf _ _ _ hfull
            · rw [if_neg hc]; exact e1
          | _ => intro e1; exact e1
        | _ => intro e1; exact e1
    exact ⟨this.dead, fun _ => this⟩
  | .obj0 w', hwf => by
    intro w p hist warns f hw hp hne
    have : Never (item env f ⟨w ++ p, Bool.true, hist, warns⟩) := by
      unfold item
      rw [consumeToken_good, skip_blank hw]
      replace hp := prefix_cons hp
      rcases hp with rfl | ⟨p, rfl, hp⟩
      · trivial
      rw [punct_tok (by decide)]
      simp only [Out.bind, arrItem]
      rw [if_neg (by decide), if_pos True.intro]
      cases f with
      | zero => trivial
      | succ f =>
        rw [objectLoop_succ, consumeToken_good]
        replace hp := prefix_split hp
        rcases hp with ⟨hp, _⟩ | ⟨p, rfl, hp⟩
        · rw [blank_eof (blank_prefix hwf hp)]; trivial
        replace hp := prefix_cons hp
        rcases hp with rfl | ⟨p, rfl, hp⟩
        · rw [blank_eof (by simpa using (show Blank w' from hwf))]; trivial
        · have : p = [] := List.prefix_nil.mp hp
          subst this
          exact absurd (by simp [Doc.text]) hne
    exact ⟨this.dead, fun _ => this⟩
  | .obj ms, hwf => by
    intro w p hist warns f hw hp hne
    have : Never (item env f ⟨w ++ p, Bool.true, hist, warns⟩) := by
      unfold item
      rw [consumeToken_good, skip_blank hw]
      replace hp := prefix_cons hp
      rcases hp with rfl | ⟨p, rfl, hp⟩
      · trivial
      rw [punct_tok (by decide)]
      simp only [Out.bind, arrItem]
      rw [if_neg (by decide), if_pos True.intro]
      have hp' : p <+: ms.text := by
        replace hp := prefix_split hp
        rcases hp with ⟨hp, _⟩ | ⟨p, rfl, hp⟩
        · exact hp
        · replace hp := prefix_cons hp
          rcases hp with rfl | ⟨p, rfl, hp⟩
          · simp
          · have : p = [] := List.prefix_nil.mp hp
            subst this
            exact absurd (by simp [Doc.text]) hne
      exact preM ms hwf none p _ _ f List.nodup_nil hp'
    exact ⟨this.dead, fun _ => this⟩
theorem preI : (its : Items) → its.WF env.ascii → PreI env its
  | .one w1 d w2, hwf => by
    intro acc p hist warns f hp
    obtain ⟨h1, hd, h2⟩ := hwf
    simp only [Items.text, List.append_assoc] at hp
    replace hp := prefix_split hp
    rcases hp with ⟨hp, _⟩ | ⟨p, rfl, hp⟩
    · exact arr_blank env (blank_prefix h1 hp) _ _ _ _
    replace hp := prefix_split hp
    rcases hp with ⟨hp, hne⟩ | ⟨p, rfl, hp⟩
    · exact arr_item_prefix env (preD d hd) h1 hp hne _ _ _ _
    · rw [← List.append_assoc]
      exact arr_item_blank env hd h1 (blank_prefix h2 hp) _ _ _ _
  | .more w1 d w2 its, hwf => by
    intro acc p hist warns f hp
    obtain ⟨h1, hd, h2, hi⟩ := hwf
    simp only [Items.text, List.append_assoc] at hp
    replace hp := prefix_split hp
    rcases hp with ⟨hp, _⟩ | ⟨p, rfl, hp⟩
    · exact arr_blank env (blank_prefix h1 hp) _ _ _ _
    replace hp := prefix_split hp
    rcases hp with ⟨hp, hne⟩ | ⟨p, rfl, hp⟩
    · exact arr_item_prefix env (preD d hd) h1 hp hne _ _ _ _
    rw [← List.append_assoc]
    replace hp := prefix_split hp
    rcases hp with ⟨hp, _⟩ | ⟨p, rfl, hp⟩
    · exact arr_item_blank env hd h1 (blank_prefix h2 hp) _ _ _ _
    replace hp := prefix_cons hp
    rcases hp with rfl | ⟨p, rfl, hp⟩
    · exact arr_item_blank env hd h1 (by simpa using h2) _ _ _ _
    cases f with
    | zero => cases tokenLoop env (w1 ++ d.text ++ (w2 ++ 44 :: p)) hist warns <;> trivial
    | succ f =>
      rw [array_bind]
      have := item_all env d hd w1 (w2 ++ 44 :: p) hist warns f h1 (follow_sep d h2 (Or.inl rfl) p)
      unfold item at this
      rw [consumeToken_good] at this
      refine Post.bind this ?_
      rintro v ⟨r, g, h, ws⟩ ⟨hr, hg⟩
      dsimp only at hr hg
      subst hr
      have hg : g = Bool.true := by rcases hg with hg | hg; exact hg; simp at hg
      subst hg
      rw [consumeToken_good, skip_blank h2, punct_tok (by decide)]
      simp only [Out.bind, arrSep]
      rw [if_neg (by decide), if_pos True.intro, consumeToken_good]
      exact preI its hi _ p _ _ f hp
theorem preM : (ms : Members) → ms.WF env.ascii → PreM env ms
  | .one w1 k w2 w3 d w4, hwf => by
    intro r p hist warns f _ hp
    obtain ⟨h1, hk, h2, h3, hd, h4⟩ := hwf
    exact member_prefix env (preD d hd) hd r h1 hk h2 h3 h4 hp hist warns f
  | .more w1 k w2 w3 d w4 ms, hwf => by
    intro r p hist warns f hn hp
    obtain ⟨h1, hk, h2, h3, hd, h4, hm⟩ := hwf
    simp only [Members.text, List.append_assoc] at hp
    have hsplit : p <+: w1 ++ strText k ++ w2 ++ [58] ++ w3 ++ d.text ++ w4 ∨
        ∃ q, p = w1 ++ (strText k ++ (w2 ++ (58 :: (w3 ++ d.text ++ (w4 ++ 44 :: q))))) ∧ q <+: ms.text := by
      have e : w1 ++ (strText k ++ (w2 ++ ([58] ++ (w3 ++ (d.text ++ (w4 ++ ([44] ++ ms.text))))))) =
        (w1 ++ strText k ++ w2 ++ [58] ++ w3 ++ d.text ++ w4) ++ (44 :: ms.text) := by simp
      rw [e] at hp
      replace hp := prefix_split hp
      rcases hp with ⟨hp, _⟩ | ⟨q, rfl, hp⟩
      · exact Or.inl hp
      · replace hp := prefix_cons hp
        rcases hp with rfl | ⟨q, rfl, hp⟩
        · exact Or.inl (by simp)
        · exact Or.inr ⟨q, by simp, hp⟩
    clear hp
    rcases hsplit with hp | ⟨q, rfl, hp⟩
    · exact member_prefix env (preD d hd) hd r h1 hk h2 h3 h4 hp hist warns f
    · have hfol := follow_sep d h4 (Or.inl rfl) q
      by_cases hok : (env.strictOr = Bool.true → strValue env.ascii k ∉ keys (r.getD [])) ∧ okD env.ascii env.strictOr d
      · obtain ⟨f0, h, ws, hws, e⟩ := member_ok env d (readsD env d hd hok.2) r w1 w2 w3 k (w4 ++ 44 :: q) hist warns h1 hk h2 h3 hfol (by simp) hok.1
        obtain ⟨hn', hmem⟩ := addOne_nodup env (r.getD []) (strValue env.ascii k) (d.value env.ascii env.sort) hn
        refine Never.of_refines ?_ ((reader_mono env f (max f f0 + 1) (by omega)).2.1 r _)
        rw [e (max f f0) (by omega), skip_blank h4, punct_tok (by decide)]
        simp only [Out.bind, objSep]
        rw [if_neg (by decide)]
        exact preM ms hm _ q _ _ _ hn' hp
      · have : (env.strictOr = Bool.true ∧ strValue env.ascii k ∈ keys (r.getD [])) ∨ FailsD env d := by
          by_cases hokd' : okD env.ascii env.strictOr d
          · left
            simp only [hokd', and_true] at hok
            exact Classical.not_imp.mp hok |>.imp id (fun h => Classical.not_not.mp h)
          · exact Or.inr (failsD env d hd hokd')
        obtain ⟨f0, h⟩ := member_fails env d r w1 w2 w3 k (w4 ++ 44 :: q) hist warns h1 hk h2 h3 hfol this
        refine Never.of_refines ?_ ((reader_mono env f (max f f0) (by omega)).2.1 r _)
        exact (h.refines ((reader_mono env f0 (max f f0) (by omega)).2.1 r _)).never
end

end Verif.Lemmas
