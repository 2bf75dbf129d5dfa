import Verif.Lemmas.MistakesTok
/-!
# Lemmas: the places of a text, and what is wrong there
-/
namespace Verif.Lemmas
open Verif.Model Verif.Spec

variable {input : Bytes} {Hd : LHist → Bytes → Prop} {env : Env} {I J : St → Prop}

theorem slip_ne {x : Slip} {after : Bytes} (h : x.EndsWith after) : x.text ++ after ≠ [] := by
  cases x with
  | notString w d => intro h'; exact h.1 (List.append_eq_nil_iff.mp h').2
  | _ => simp [Slip.text]

/-- The token of a number, of `true`, `false` or `null`. -/
theorem prim_tok {d : Doc} (hd : GoodDoc env.ascii env.strictOr d) (hk : NoString d) {rest : Bytes} (hf : Follow d rest) (hist : LHist) (warns : List Exn) :
    ∃ g h v, (g = true ∨ rest = []) ∧ (∀ k, v ≠ .str k) ∧ tokenLoop env (d.text ++ rest) hist warns = .ret (.val v) ⟨rest, g, h, warns⟩ := by
  cases d with
  | true =>
    obtain ⟨g, h, hg, _, e⟩ := bool_tok env Bool.true rest hf hist warns
    exact ⟨g, h, _, hg, by simp, e⟩
  | false =>
    obtain ⟨g, h, hg, _, e⟩ := bool_tok env Bool.false rest hf hist warns
    exact ⟨g, h, _, hg, by simp, e⟩
  | null =>
    obtain ⟨h, e⟩ := null_tok env rest hist warns
    exact ⟨Bool.true, h, _, Or.inl rfl, by simp, e⟩
  | int neg ds =>
    obtain ⟨g, h, hg, _, e⟩ := (int_tok env neg ds hd.1 rest hf hist warns).1 hd.2.1
    exact ⟨g, h, _, hg, by intro k; unfold intJson; split <;> simp, e⟩
  | frac neg ds fs =>
    obtain ⟨g, h, hg, _, e⟩ := frac_tok env neg ds fs hd.1.1 hd.1.2 rest hf hist warns
    exact ⟨g, h, _, hg, by simp, e⟩
  | _ => exact hk.elim

theorem tok_bind {α : Type} {o : Out Tok} {e : Exn} (h : o = .throw e) (k : Tok → St → Out α) : o.bind k = .throw e := by rw [h]; rfl

/-- After an item. -/
theorem place_afterItem (H : Held env I J) {fs : List Frame} {w w1 : Bytes} {items : List DoneItem} {d : Doc}
    (hg : (Place.afterItem fs w items w1 d).Good env.ascii env.strictOr) {rest : Bytes} (hr : rest ≠ []) (he : Ends d rest) {hist : LHist} {warns : List Exn}
    (hs : I ⟨(Place.afterItem fs w items w1 d).text ++ rest, true, hist, warns⟩) :
    ∃ acc h ws, J ⟨rest, true, h, ws⟩ ∧ ∃ F, ∀ f, F ≤ f → ∀ e, (tokenLoop env rest h ws).bind (arrSep env f acc) = .throw e →
      FailsV env ⟨(Place.afterItem fs w items w1 d).text ++ rest, true, hist, warns⟩ e := by
  obtain ⟨g1, g2, g3, g4, g5⟩ := hg
  have et : (Place.afterItem fs w items w1 d).text ++ rest = framesText fs ++ (w ++ b!"[" ++ itemsText items ++ (w1 ++ d.text ++ rest)) := by simp [Place.text]
  rw [et] at hs ⊢
  obtain ⟨h, ws, s1, k1⟩ := frames_step H fs g1 _ _ _ hs
  obtain ⟨acc, h2, ws2, s2, k2⟩ := open_arr H g2 items g3 _ s1
  obtain ⟨F, acc', h3, ws3, s3, hne, k3⟩ := item_step H g5 g4 (ends_follow he) hr acc (H.sub _ s2)
  refine ⟨acc', h3, ws3, s3, F, fun f hf e hx => k1 e (k2 e (f + 1) ?_)⟩
  rw [← hx, ← k3 f hf]
  cases ht : tokenLoop env (w1 ++ d.text ++ rest) h2 ws2 with
  | ret t s =>
    have := hne t s ht
    cases t with
    | punct c => simp only [Out.bind, arrNext]; rw [if_neg]; rintro ⟨_, rfl⟩; exact this rfl
    | _ => rfl
  | _ => rfl

/-- Where a key is expected. -/
theorem place_key (H : Held env I J) {fs : List Frame} {w : Bytes} {ms : List DoneMember}
    (hg : (Place.key fs w ms).Good env.ascii env.strictOr) (rest : Bytes) {hist : LHist} {warns : List Exn}
    (hs : I ⟨(Place.key fs w ms).text ++ rest, true, hist, warns⟩) :
    ∃ (r : Option Entries) (h : LHist) (ws : List Exn), J ⟨rest, true, h, ws⟩ ∧ (∀ k, k ∈ keys (r.getD []) ↔ k ∈ keysOf env.ascii ms) ∧ r.isNone = ms.isEmpty ∧
      ∀ f e, objectLoop env f r ⟨rest, true, h, ws⟩ = .throw e → FailsV env ⟨(Place.key fs w ms).text ++ rest, true, hist, warns⟩ e := by
  obtain ⟨g1, g2, g3, g4⟩ := hg
  have et : (Place.key fs w ms).text ++ rest = framesText fs ++ (w ++ b!"{" ++ membersText ms ++ rest) := by simp [Place.text]
  rw [et] at hs ⊢
  obtain ⟨h, ws, s1, k1⟩ := frames_step H fs g1 _ _ _ hs
  obtain ⟨r, h2, ws2, s2, _, n2, n3, k2⟩ := open_obj H g2 ms g3 g4 _ s1
  exact ⟨r, h2, ws2, s2, n2, n3, fun f e he => k1 e (k2 e f he)⟩

/-- After a key. -/
theorem place_afterKey (H : Held env I J) {fs : List Frame} {w w1 : Bytes} {ms : List DoneMember} {k : List StrItem}
    (hg : (Place.afterKey fs w ms w1 k).Good env.ascii env.strictOr) (rest : Bytes) {hist : LHist} {warns : List Exn}
    (hs : I ⟨(Place.afterKey fs w ms w1 k).text ++ rest, true, hist, warns⟩) :
    ∃ es h ws, J ⟨rest, true, h, ws⟩ ∧
      ∀ f e, (tokenLoop env rest h ws).bind (objColon env f es (strValue env.ascii k)) = .throw e → FailsV env ⟨(Place.afterKey fs w ms w1 k).text ++ rest, true, hist, warns⟩ e := by
  obtain ⟨g1, g2, g3, g4, g5, g6⟩ := hg
  have et : (Place.afterKey fs w ms w1 k).text ++ rest = (Place.key fs w ms).text ++ (w1 ++ (strText k ++ rest)) := by simp [Place.text]
  rw [et] at hs ⊢
  obtain ⟨r, h, ws, s1, _, _, k1⟩ := place_key H ⟨g1, g2, g3, g4⟩ _ hs
  obtain ⟨ha, e1⟩ := string_tok env k g6 rest (w1.foldl LHist.put h) ws
  have s2 := H.tok (H.sub _ s1) (by rw [consumeToken_good, skip_blank g5]; exact e1)
  refine ⟨r.getD [], ha, ws, s2, fun f e he => k1 (f + 1) e ?_⟩
  rw [objectLoop_succ, consumeToken_good, skip_blank g5, e1]
  simp only [Out.bind, objKey]
  rw [consumeToken_good]
  exact he

/-- After a member. -/
theorem place_afterMember (H : Held env I J) {fs : List Frame} {w w1 w2 w3 : Bytes} {ms : List DoneMember} {k : List StrItem} {d : Doc}
    (hg : (Place.afterMember fs w ms w1 k w2 w3 d).Good env.ascii env.strictOr) {rest : Bytes} (hr : rest ≠ []) (he : Ends d rest) {hist : LHist} {warns : List Exn}
    (hs : I ⟨(Place.afterMember fs w ms w1 k w2 w3 d).text ++ rest, true, hist, warns⟩) :
    ∃ es h ws, J ⟨rest, true, h, ws⟩ ∧ ∃ F, ∀ f, F ≤ f → ∀ e, (tokenLoop env rest h ws).bind (objSep env f es) = .throw e →
      FailsV env ⟨(Place.afterMember fs w ms w1 k w2 w3 d).text ++ rest, true, hist, warns⟩ e := by
  obtain ⟨g1, g2, g3, g4, g5, g6, g7, g8, g9⟩ := hg
  have et : (Place.afterMember fs w ms w1 k w2 w3 d).text ++ rest = (Place.key fs w ms).text ++ (w1 ++ (strText k ++ (w2 ++ (58 :: (w3 ++ d.text ++ rest))))) := by simp [Place.text]
  rw [et] at hs ⊢
  obtain ⟨r, h, ws, s1, n1, _, k1⟩ := place_key H ⟨g1, g2, g3, fun hst => (List.nodup_append.mp (g9 hst)).1⟩ _ hs
  obtain ⟨F, h2, ws2, s2, k2⟩ := member_done H g8 r g4 g5 g6 g7 rest (ends_follow he) hr (H.sub _ s1) (by
    intro hst hk
    have := List.nodup_append.mp (g9 hst)
    exact this.2.2 _ ((n1 _).mp hk) _ (by simp) rfl)
  exact ⟨_, h2, ws2, s2, F, fun f hf e hx => k1 (f + 1) e ((k2 f hf).trans hx)⟩

/-- At every place: a token that fails. -/
theorem place_tok (H : Held env I J) (p : Place) (hg : p.Good env.ascii env.strictOr) {rest : Bytes} (hr : rest ≠ []) (he : p.Ends rest) {hist : LHist} {warns : List Exn}
    (hs : I ⟨p.text ++ rest, true, hist, warns⟩) :
    ∃ h ws, I ⟨rest, true, h, ws⟩ ∧ ∀ e, tokenLoop env rest h ws = .throw e → FailsV env ⟨p.text ++ rest, true, hist, warns⟩ e := by
  cases p with
  | value fs =>
    obtain ⟨h, ws, s1, k1⟩ := frames_step H fs hg _ _ _ hs
    exact ⟨h, ws, s1, fun e hx => k1 e (failsV_tok hx)⟩
  | afterItem fs w items w1 d =>
    obtain ⟨acc, h, ws, s1, F, k1⟩ := place_afterItem H hg hr he hs
    exact ⟨h, ws, H.sub _ s1, fun e hx => k1 F (Nat.le_refl _) e (tok_bind hx _)⟩
  | key fs w ms =>
    obtain ⟨r, h, ws, s1, _, _, k1⟩ := place_key H hg _ hs
    exact ⟨h, ws, H.sub _ s1, fun e hx => k1 1 e (by rw [objectLoop_succ]; exact tok_bind hx _)⟩
  | afterKey fs w ms w1 k =>
    obtain ⟨es, h, ws, s1, k1⟩ := place_afterKey H hg _ hs
    exact ⟨h, ws, H.sub _ s1, fun e hx => k1 0 e (tok_bind hx _)⟩
  | afterMember fs w ms w1 k w2 w3 d =>
    obtain ⟨acc, h, ws, s1, F, k1⟩ := place_afterMember H hg hr he hs
    exact ⟨h, ws, H.sub _ s1, fun e hx => k1 F (Nat.le_refl _) e (tok_bind hx _)⟩

theorem punct_of {c : Byte} (h : c ∈ b!"{}[],:") : isPunct c = true := by
  simp at h
  unfold isPunct; simp; omega

/-- What is wrong at a place makes the reader throw the exception for it there; `U` is what is known of its history. -/
theorem slip_throws_held (H : Held env I J) (U : LHist → Prop) (p : Place) (hg : p.Good env.ascii env.strictOr) (x : Slip) (hx : x.Wrong env.ascii env.strictOr p) (after : Bytes)
    (he : p.Ends (x.text ++ after)) (hx' : x.EndsWith after) {hist : LHist} {warns : List Exn}
    (hU : Slip.NoToken x → ∀ h ws, I ⟨x.text ++ after, true, h, ws⟩ → ∃ h2, tokenLoop env (x.text ++ after) h ws = .throw ⟨Slip.kind env.ascii p x, h2⟩ ∧ U h2)
    (hUp : ∀ w c, x = .punct w c → isPunct c = true → ∀ h ws, J ⟨w ++ c :: after, true, h, ws⟩ → U ((w.foldl LHist.put h).put c))
    (hUs : ¬ Slip.NoToken x → ∀ h ws, J ⟨after, true, h, ws⟩ → U h)
    (hs : I ⟨p.text ++ (x.text ++ after), true, hist, warns⟩) :
    ∃ h, FailsV env ⟨p.text ++ (x.text ++ after), true, hist, warns⟩ ⟨Slip.kind env.ascii p x, h⟩ ∧ U h := by
  by_cases hn : Slip.NoToken x
  · obtain ⟨h, ws, s1, k1⟩ := place_tok H p hg (slip_ne hx') he hs
    obtain ⟨h2, e2, u2⟩ := hU hn h ws s1
    exact ⟨h2, k1 _ e2, u2⟩
  cases x with
  | stray w c => exact absurd trivial hn
  | word w l c => exact absurd trivial hn
  | nullWord w n x1 x2 x3 => exact absurd trivial hn
  | hex w items h1 h2 h3 h4 => exact absurd trivial hn
  | punct w c =>
    have et : Slip.text (.punct w c) ++ after = w ++ (c :: after) := by simp [Slip.text]
    rw [et] at hs ⊢
    obtain ⟨hb, hx⟩ := hx
    cases p with
    | value fs =>
      obtain ⟨fs', w', items, rfl, hc⟩ := hx
      have hp : isPunct c = true := punct_of (by simp at hc ⊢; omega)
      have et2 : (Place.value (fs' ++ [.arr w' items])).text ++ (w ++ c :: after) = framesText fs' ++ (w' ++ b!"[" ++ itemsText items ++ (w ++ c :: after)) := by
        simp [Place.text, framesText, Frame.text]
      rw [et2] at hs ⊢
      obtain ⟨h, ws, s1, k1⟩ := frames_step H fs' (fun f hf => hg f (by simp [hf])) _ _ _ hs
      have hfr := hg (.arr w' items) (by simp)
      obtain ⟨acc, h2, ws2, s2, k2⟩ := open_arr H hfr.1 items hfr.2 _ s1
      refine ⟨(w.foldl LHist.put h2).put c, k1 _ (k2 _ 1 ?_), hUp w c rfl hp _ _ s2⟩
      rw [skip_blank hb, punct_tok hp]
      simp only [Out.bind, arrNext]
      simp at hc
      rw [if_neg (by
        rintro ⟨h1, h2⟩
        rcases hc with hc | ⟨_, hc⟩
        · omega
        · exact hc (by simpa using h1)), arrayLoop_succ]
      simp only [arrItem]
      rw [if_neg (by omega), if_neg (by omega)]
      rfl
    | key fs w' ms =>
      obtain ⟨r, h, ws, s1, _, n2, k1⟩ := place_key H hg _ hs
      have hp : isPunct c = true := punct_of (by simp at hx ⊢; omega)
      refine ⟨(w.foldl LHist.put h).put c, k1 1 _ ?_, hUp w c rfl hp _ _ s1⟩
      rw [objectLoop_succ, consumeToken_good, skip_blank hb, punct_tok hp]
      simp only [Out.bind, objKey]
      rw [if_neg]
      · rfl
      · rintro ⟨h1, rfl⟩
        rw [n2] at h1
        simp at hx
        exact hx (by simpa using h1)
    | afterItem fs w items w1 d => exact hx.elim
    | afterKey fs w ms w1 k => exact hx.elim
    | afterMember fs w ms w1 k w2 w3 d => exact hx.elim
  | notString w d =>
    have et : Slip.text (.notString w d) ++ after = w ++ d.text ++ after := by simp [Slip.text]
    rw [et] at hs ⊢
    obtain ⟨hb, hd, hk, hx⟩ := hx
    cases p with
    | key fs w' ms =>
      obtain ⟨r, h, ws, s1, _, _, k1⟩ := place_key H hg _ hs
      obtain ⟨g, h2, v, hg2, hv, e2⟩ := prim_tok hd hk (ends_follow hx'.2) (w.foldl LHist.put h) ws
      have hg2 : g = true := by rcases hg2 with hg2 | hg2; exact hg2; exact absurd hg2 hx'.1
      subst hg2
      have e3 : consumeToken env ⟨w ++ d.text ++ after, true, h, ws⟩ = .ret (.val v) ⟨after, true, h2, ws⟩ := by
        rw [consumeToken_good, List.append_assoc, skip_blank hb, e2]
      refine ⟨h2, k1 1 _ ?_, hUs hn _ _ (H.tok (H.sub _ s1) e3)⟩
      rw [objectLoop_succ, e3]
      cases v with
      | str key => exact absurd rfl (hv key)
      | _ => rfl
    | value fs => exact hx.elim
    | afterItem fs w items w1 d => exact hx.elim
    | afterKey fs w ms w1 k => exact hx.elim
    | afterMember fs w ms w1 k w2 w3 d => exact hx.elim
  | again w1 k w2 =>
    have et : Slip.text (.again w1 k w2) ++ after = w1 ++ (strText k ++ (w2 ++ (58 :: after))) := by simp [Slip.text]
    rw [et] at hs ⊢
    obtain ⟨h1, hk, h2, hst, hx⟩ := hx
    cases p with
    | key fs w' ms =>
      obtain ⟨r, h, ws, s1, n1, _, k1⟩ := place_key H hg _ hs
      obtain ⟨h3, s3, k3⟩ := key_step H r h1 hk h2 after (H.sub _ s1)
      refine ⟨h3, k1 1 _ ?_, hUs hn _ _ s3⟩
      have hc : Json.contains (r.getD []) (strValue env.ascii k) = true := (contains_iff _ _).mpr ((n1 _).mpr hx)
      rw [k3, hc, hst]
      rfl
    | value fs => exact hx.elim
    | afterItem fs w items w1 d => exact hx.elim
    | afterKey fs w ms w1 k => exact hx.elim
    | afterMember fs w ms w1 k w2 w3 d => exact hx.elim

/-- The same, with the history. -/
theorem slip_throws (HH : HistRel input Hd (fun _ => True)) (p : Place) (hg : p.Good env.ascii env.strictOr) (x : Slip) (hx : x.Wrong env.ascii env.strictOr p) (after : Bytes)
    (he : p.Ends (x.text ++ after)) (hx' : x.EndsWith after)
    (hw : ∀ w n x1 x2 x3, x = .nullWord w n x1 x2 x3 → 10 ∉ [x1, x2, x3]) (hh : ∀ w items h1 h2 h3 h4, x = .hex w items h1 h2 h3 h4 → 10 ∉ [h1, h2, h3, h4]) {hist : LHist} {warns : List Exn}
    (hs : Sync input Hd ⟨p.text ++ (x.text ++ after), true, hist, warns⟩) :
    ∃ h, FailsV env ⟨p.text ++ (x.text ++ after), true, hist, warns⟩ ⟨Slip.kind env.ascii p x, h⟩ ∧ Upto input Hd h after :=
  slip_throws_held (sync_held HH env) (fun h => Upto input Hd h after) p hg x hx after he hx'
    (fun hn h ws s1 => noToken_throws HH p x hx hn after hw hh s1.upto (warns := ws))
    (fun w c _ _ h ws s1 => (s1.upto.puts HH).put HH) (fun _ h ws s1 => s1.upto) hs

end Verif.Lemmas
