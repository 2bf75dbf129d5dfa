import Verif.Lemmas.Grammar
/-!
# Lemmas: well-formed texts with an integer out of range, or (strict) a repeated key, are rejected
-/
namespace Verif.Lemmas
open Verif.Model Verif.Spec

/-- The two rejections of well-formed texts. -/
def Rejects {α : Type} (strict : Bool) (fits : Prop) (o : Out α) : Prop :=
  (o = .uncaught .outOfRange ∧ ¬ fits) ∨ (strict = true ∧ ∃ k h, o = .throw ⟨.doubleKey k, h⟩)

theorem Rejects.bind {α β : Type} {st : Bool} {p : Prop} {o : Out α} (h : Rejects st p o) (f : α → St → Out β) : Rejects st p (o.bind f) := by
  rcases h with ⟨rfl, h⟩ | ⟨hs, k, h, rfl⟩
  · exact Or.inl ⟨rfl, h⟩
  · exact Or.inr ⟨hs, k, h, rfl⟩

theorem Rejects.mono {α : Type} {st : Bool} {p q : Prop} {o : Out α} (h : Rejects st p o) (hq : q → p) : Rejects st q o := by
  rcases h with ⟨rfl, h⟩ | h
  · exact Or.inl ⟨rfl, fun x => h (hq x)⟩
  · exact Or.inr h

theorem Rejects.ne_fuel {α : Type} {st : Bool} {p : Prop} {o : Out α} (h : Rejects st p o) : o ≠ .fuel := by
  rcases h with ⟨rfl, h⟩ | ⟨hs, k, h, rfl⟩ <;> simp

theorem Rejects.refines {α : Type} {st : Bool} {p : Prop} {o o' : Out α} (h : Rejects st p o) (hr : Refines o o') : Rejects st p o' := by
  rw [hr h.ne_fuel]; exact h

variable (env : Env)

def FailsD (d : Doc) : Prop :=
  ∀ w rest hist warns, Blank w → Follow d rest → ∃ f, Rejects env.strictOr d.Fits (item env f ⟨w ++ d.text ++ rest, true, hist, warns⟩)

def FailsI (its : Items) : Prop :=
  ∀ acc rest hist warns, ∃ f, Rejects env.strictOr its.Fits ((tokenLoop env (its.text ++ 93 :: rest) hist warns).bind (fun t s => arrayLoop env f acc t s))

def FailsM (ms : Members) : Prop :=
  ∀ r rest hist warns, (keys (r.getD [])).Nodup → ¬ okM env.ascii env.strictOr (keys (r.getD [])) ms →
    ∃ f, Rejects env.strictOr ms.Fits (objectLoop env f r ⟨ms.text ++ 125 :: rest, true, hist, warns⟩)

theorem array_bind (f : Nat) (acc : List Json) (o : Out Tok) : o.bind (fun t s => arrayLoop env (f + 1) acc t s) =
      (o.bind (arrItem env f)).bind (fun child s => (consumeToken env s).bind (arrSep env f (acc ++ [child]))) := by
  rw [bind_assoc]; congr 1

theorem item_fails (d : Doc) (hd : FailsD env d) (w rest : Bytes) (hist : LHist) (warns : List Exn) (acc : List Json)
    (hw : Blank w) (hf : Follow d rest) :
    ∃ f, Rejects env.strictOr d.Fits ((tokenLoop env (w ++ d.text ++ rest) hist warns).bind (fun t s => arrayLoop env f acc t s)) := by
  obtain ⟨f, h⟩ := hd w rest hist warns hw hf
  refine ⟨f + 1, ?_⟩
  rw [array_bind]
  unfold item at h
  rw [consumeToken_good] at h
  exact h.bind _

theorem readNext_rejects {p : Prop} {f : Nat} {s : St} (h : Rejects env.strictOr p (item env f s)) : Rejects env.strictOr p (readNext env (f + 1) s) := by
  obtain ⟨_, h2, h3⟩ := readNext_item env f s
  rcases h with ⟨e, h⟩ | ⟨hs, k, h, e⟩
  · exact Or.inl ⟨h3 _ e, h⟩
  · exact Or.inr ⟨hs, k, h, h2 _ e (by simp)⟩

theorem member_fails (d : Doc) (r : Option Entries) (w1 w2 w3 : Bytes) (k : List StrItem) (rest : Bytes) (hist : LHist) (warns : List Exn)
    (h1 : Blank w1) (hk : strWF env.ascii k) (h2 : Blank w2) (h3 : Blank w3) (hf : Follow d rest)
    (h : (env.strictOr = true ∧ strValue env.ascii k ∈ keys (r.getD [])) ∨ FailsD env d) :
    ∃ f, Rejects env.strictOr d.Fits
      (objectLoop env f r ⟨w1 ++ (strText k ++ (w2 ++ (58 :: (w3 ++ d.text ++ rest)))), true, hist, warns⟩) := by
  obtain ⟨ha, e1⟩ := member_step env r w1 w2 k (w3 ++ d.text ++ rest) hist warns h1 hk h2
  by_cases hc : (Json.contains (r.getD []) (strValue env.ascii k) && env.strictOr) = true
  · refine ⟨1, ?_⟩
    rw [e1 0, if_pos hc]
    simp only [Bool.and_eq_true] at hc
    exact Or.inr ⟨hc.2, _, _, rfl⟩
  · rcases h with ⟨hs, hm⟩ | hd
    · exact absurd (by rw [(contains_iff _ _).mpr hm, hs]; rfl) hc
    · by_cases hcon : Json.contains (r.getD []) (strValue env.ascii k) = true
      · obtain ⟨f, hr⟩ := hd w3 rest ha (warns ++ [⟨.doubleKey (strValue env.ascii k), ha⟩]) h3 hf
        refine ⟨f + 2, ?_⟩
        rw [e1, if_neg hc, if_pos hcon]
        exact (readNext_rejects env hr).bind _
      · obtain ⟨f, hr⟩ := hd w3 rest ha warns h3 hf
        refine ⟨f + 2, ?_⟩
        rw [e1, if_neg hc, if_neg hcon]
        exact (readNext_rejects env hr).bind _

mutual
theorem failsD : (d : Doc) → d.WF env.ascii → ¬ okD env.ascii env.strictOr d → FailsD env d
  | .str items, _, h => by simp [okD] at h
  | .true, _, h => by simp [okD] at h
  | .false, _, h => by simp [okD] at h
  | .null, _, h => by simp [okD] at h
  | .frac _ _ _, _, h => by simp [okD] at h
  | .arr0 _, _, h => by simp [okD] at h
  | .obj0 _, _, h => by simp [okD] at h
  | .int neg ds, hwf, hok => by
    intro w rest hist warns hw hf
    refine ⟨0, Or.inl ⟨?_, hok⟩⟩
    unfold item
    rw [consumeToken_good, List.append_assoc, skip_blank hw]
    have := (int_tok env neg ds hwf rest hf (w.foldl LHist.put hist) warns).2 hok
    rw [show Doc.text (.int neg ds) = intText neg ds from rfl, this]
    rfl
  | .arr its, hwf, hok => by
    intro w rest hist warns hw _
    have e : w ++ Doc.text (.arr its) ++ rest = w ++ (91 :: (its.text ++ (93 :: rest))) := by simp [Doc.text]
    obtain ⟨f, e1⟩ := failsI its hwf hok [] rest ((w.foldl LHist.put hist).put 91) warns
    refine ⟨f + 1, ?_⟩
    unfold item
    rw [e, consumeToken_good, skip_blank hw, punct_tok (by decide)]
    simp only [Out.bind, arrItem, if_true]
    rw [readArray_succ, consumeToken_good]
    show Rejects _ its.Fits _
    revert e1
    cases ht : tokenLoop env (its.text ++ 93 :: rest) ((w.foldl LHist.put hist).put 91) warns with
    | ret t s1 =>
      cases t with
      | punct c =>
        intro e1
        simp only [Out.bind] at e1 ⊢
        by_cases hc : c = 93
        · exfalso
          subst hc
          cases f with
          | zero => simp [arrayLoop, Rejects] at e1
          | succ f => rw [arrayLoop_succ] at e1; simp [arrItem, Out.bind, Rejects] at e1
        · rw [if_neg hc]; exact e1
      | _ => intro e1; exact e1
    | _ => intro e1; exact e1
  | .obj ms, hwf, hok => by
    intro w rest hist warns hw _
    have e : w ++ Doc.text (.obj ms) ++ rest = w ++ (123 :: (ms.text ++ (125 :: rest))) := by simp [Doc.text]
    obtain ⟨f, e1⟩ := failsM ms hwf none rest ((w.foldl LHist.put hist).put 123) warns List.nodup_nil hok
    refine ⟨f, ?_⟩
    unfold item
    rw [e, consumeToken_good, skip_blank hw, punct_tok (by decide)]
    simp only [Out.bind, arrItem]
    rw [if_neg (by decide), if_pos True.intro]
    exact e1
theorem failsI : (its : Items) → its.WF env.ascii → ¬ okI env.ascii env.strictOr its → FailsI env its
  | .one w1 d w2, hwf, hok => by
    intro acc rest hist warns
    obtain ⟨h1, hd, h2⟩ := hwf
    have e2 : Items.text (.one w1 d w2) ++ 93 :: rest = w1 ++ d.text ++ (w2 ++ 93 :: rest) := by simp [Items.text]
    rw [e2]
    exact item_fails env d (failsD d hd hok) w1 (w2 ++ 93 :: rest) hist warns acc h1 (follow_sep d h2 (Or.inr (Or.inl rfl)) rest)
  | .more w1 d w2 its, hwf, hok => by
    intro acc rest hist warns
    obtain ⟨h1, hd, h2, hi⟩ := hwf
    have e2 : Items.text (.more w1 d w2 its) ++ 93 :: rest = w1 ++ d.text ++ (w2 ++ 44 :: (its.text ++ 93 :: rest)) := by simp [Items.text]
    have hfol := follow_sep d h2 (Or.inl rfl) (its.text ++ 93 :: rest)
    rw [e2]
    by_cases hokd : okD env.ascii env.strictOr d
    · obtain ⟨f, h, ws, hws, e⟩ := item_ok env d (readsD env d hd hokd) w1 (w2 ++ 44 :: (its.text ++ 93 :: rest)) hist warns acc h1 hfol (by simp)
      obtain ⟨f2, hr⟩ := failsI its hi (fun h => hok ⟨hokd, h⟩) (acc ++ [d.value env.ascii env.sort]) rest ((w2.foldl LHist.put h).put 44) (warns ++ ws)
      refine ⟨max f f2 + 1, ?_⟩
      rw [e (max f f2) (by omega), skip_blank h2, punct_tok (by decide)]
      simp only [Out.bind, arrSep]
      rw [if_neg (by decide), if_pos True.intro, consumeToken_good]
      refine Rejects.mono (p := its.Fits) ?_ (fun h => h.2)
      exact hr.refines (Refines.bind .rfl (fun t s => (reader_mono env f2 (max f f2) (by omega)).2.2.2 _ t s))
    · obtain ⟨f, h⟩ := item_fails env d (failsD d hd hokd) w1 (w2 ++ 44 :: (its.text ++ 93 :: rest)) hist warns acc h1 hfol
      exact ⟨f, h.mono (fun h => h.1)⟩
theorem failsM : (ms : Members) → ms.WF env.ascii → FailsM env ms
  | .one w1 k w2 w3 d w4, hwf => by
    intro r rest hist warns hn hok
    obtain ⟨h1, hk, h2, h3, hd, h4⟩ := hwf
    have e2 : Members.text (.one w1 k w2 w3 d w4) ++ 125 :: rest = w1 ++ (strText k ++ (w2 ++ (58 :: (w3 ++ d.text ++ (w4 ++ 125 :: rest))))) := by
      simp [Members.text]
    rw [e2]
    refine member_fails env d r w1 w2 w3 k (w4 ++ 125 :: rest) hist warns h1 hk h2 h3
      (follow_sep d h4 (Or.inr (Or.inr rfl)) rest) ?_
    by_cases hokd : okD env.ascii env.strictOr d
    · left
      simp only [okM, hokd, and_true] at hok
      exact Classical.not_imp.mp hok |>.imp id (fun h => Classical.not_not.mp h)
    · exact Or.inr (failsD d hd hokd)
  | .more w1 k w2 w3 d w4 ms, hwf => by
    intro r rest hist warns hn hok
    obtain ⟨h1, hk, h2, h3, hd, h4, hm⟩ := hwf
    have e2 : Members.text (.more w1 k w2 w3 d w4 ms) ++ 125 :: rest =
        w1 ++ (strText k ++ (w2 ++ (58 :: (w3 ++ d.text ++ (w4 ++ 44 :: (ms.text ++ 125 :: rest)))))) := by
      simp [Members.text]
    have hfol := follow_sep d h4 (Or.inl rfl) (ms.text ++ 125 :: rest)
    rw [e2]
    by_cases hokd : (env.strictOr = true → strValue env.ascii k ∉ keys (r.getD [])) ∧ okD env.ascii env.strictOr d
    · obtain ⟨f, h, ws, hws, e⟩ := member_ok env d (readsD env d hd hokd.2) r w1 w2 w3 k (w4 ++ 44 :: (ms.text ++ 125 :: rest)) hist warns h1 hk h2 h3
        hfol (by simp) hokd.1
      obtain ⟨hn', hmem⟩ := addOne_nodup env (r.getD []) (strValue env.ascii k) (d.value env.ascii env.sort) hn
      obtain ⟨f2, hr⟩ := failsM ms hm
        (some (addEntry env (dropKey (r.getD []) (strValue env.ascii k)) (strValue env.ascii k) (d.value env.ascii env.sort)))
        rest ((w4.foldl LHist.put h).put 44) (warns ++ ws) hn'
        (fun h => hok ⟨hokd.1, hokd.2, (okM_congr _ _ hmem ms).mp h⟩)
      refine ⟨max f f2 + 1, ?_⟩
      rw [e (max f f2) (by omega), skip_blank h4, punct_tok (by decide)]
      simp only [Out.bind, objSep]
      rw [if_neg (by decide)]
      refine Rejects.mono (p := ms.Fits) ?_ (fun h => h.2)
      exact hr.refines ((reader_mono env f2 (max f f2) (by omega)).2.1 _ _)
    · have : (env.strictOr = true ∧ strValue env.ascii k ∈ keys (r.getD [])) ∨ FailsD env d := by
        by_cases hokd' : okD env.ascii env.strictOr d
        · left
          simp only [hokd', and_true] at hokd
          exact Classical.not_imp.mp hokd |>.imp id (fun h => Classical.not_not.mp h)
        · exact Or.inr (failsD d hd hokd')
      obtain ⟨f, h⟩ := member_fails env d r w1 w2 w3 k (w4 ++ 44 :: (ms.text ++ 125 :: rest)) hist warns h1 hk h2 h3 hfol this
      exact ⟨f, h.mono (fun h => h.1)⟩
end

end Verif.Lemmas
