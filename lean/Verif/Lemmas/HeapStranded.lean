import Verif.Lemmas.HeapLost
import Verif.Lemmas.RefusedAll
import Verif.Spec.Stranded
/-!
# Lemmas: what is left in memory when the reader ends without a document
-/
namespace Verif.Lemmas.Heap
open Verif.Model Verif.Model.Heap Verif.Spec Verif.Spec.Heap Verif.Spec.Accepted Verif.Spec.Refused Verif.Spec.Stranded Verif.Lemmas

/-! ### Documents that lie in memory -/

theorem lies_congr {m m' : Mem} : (F : List Json) → ∀ {as}, Lies m F as → (∀ x ∈ as, m'.get x = m.get x) → Lies m' F as
  | [], _, h, _ => h
  | v :: F, _, ⟨p, a, as1, as2, e, h1, h2⟩, hc => by
    subst e
    exact ⟨p, a, as1, as2, rfl, stores_congr v h1 (fun x hx => hc x (List.mem_append_left _ hx)), lies_congr F h2 (fun x hx => hc x (List.mem_append_right _ hx))⟩

theorem lies_live {m : Mem} : (F : List Json) → ∀ {as}, Lies m F as → ∀ x ∈ as, m.get x ≠ none
  | [], _, h, x, hx => by subst h; cases hx
  | v :: F, _, ⟨p, a, as1, as2, e, h1, h2⟩, x, hx => by
    subst e
    rcases List.mem_append.mp hx with hx | hx
    · exact stores_live v h1 x hx
    · exact lies_live F h2 x hx

theorem lies_append {m : Mem} {F' : List Json} {as' : List Addr} (h' : Lies m F' as') : (F : List Json) → ∀ {as}, Lies m F as → Lies m (F ++ F') (as ++ as')
  | [], _, h => by subst h; exact h'
  | v :: F, _, ⟨p, a, as1, as2, e, h1, h2⟩ => by
    subst e
    exact ⟨p, a, as1, as2 ++ as', by simp, h1, lies_append h' F h2⟩

theorem lies_perm {m : Mem} {F F' : List Json} (hp : F.Perm F') : ∀ {as}, Lies m F as → ∃ as', as.Perm as' ∧ Lies m F' as' := by
  induction hp with
  | nil => intro as h; exact ⟨as, .refl _, h⟩
  | cons v _ ih =>
    rintro as ⟨p, a, as1, as2, rfl, h1, h2⟩
    obtain ⟨as', k1, k2⟩ := ih h2
    exact ⟨as1 ++ as', k1.append_left _, p, a, as1, as', rfl, h1, k2⟩
  | swap v w F =>
    rintro as ⟨p, a, as1, as2, rfl, h1, p', a', as3, as4, rfl, h3, h4⟩
    refine ⟨as3 ++ (as1 ++ as4), ?_, p', a', as3, _, rfl, h3, p, a, as1, as4, rfl, h1, h4⟩
    rw [← List.append_assoc, ← List.append_assoc]
    exact List.perm_append_comm.append_right _
  | trans _ _ ih1 ih2 =>
    intro as h
    obtain ⟨as1, k1, k2⟩ := ih1 h
    obtain ⟨as2, l1, l2⟩ := ih2 k2
    exact ⟨as2, k1.trans l1, l2⟩

theorem lies_prims {m : Mem} : (L : List Json) → ∀ {ls : List Addr}, ls.map (fun x => (m.get x).map Obj.body) = L.map (fun v => some (.prim v)) → (∀ v ∈ L, PrimOK v) → Lies m L ls
  | [], ls, h, _ => by
    simp at h; exact h
  | v :: L, [], h, _ => by simp at h
  | v :: L, x :: ls, h, hL => by
    simp only [List.map_cons, List.cons.injEq] at h
    obtain ⟨h1, h2⟩ := h
    cases hx : m.get x with
    | none => rw [hx] at h1; cases h1
    | some o =>
      rw [hx] at h1
      obtain ⟨p, b⟩ := o
      simp only [Option.map_some, Option.some.injEq] at h1
      subst h1
      exact ⟨p, x, [x], ls, rfl, stores_prim (hL v (by simp)) hx, lies_prims L h2 (fun u hu => hL u (by simp [hu]))⟩

/-- From `base` on there are these documents and nothing else. -/
def Rem (base : Addr) (m : Mem) (F : List Json) : Prop :=
  ∃ as, as.Nodup ∧ Lies m F as ∧ (∀ x ∈ as, base ≤ x) ∧ ∀ x, base ≤ x → m.get x ≠ none → x ∈ as

theorem Rem.perm {base : Addr} {m : Mem} {F F' : List Json} (h : Rem base m F) (hp : F.Perm F') : Rem base m F' := by
  obtain ⟨as, h1, h2, h3, h4⟩ := h
  obtain ⟨as', k1, k2⟩ := lies_perm hp h2
  exact ⟨as', k1.nodup_iff.mp h1, k2, fun x hx => h3 x (k1.mem_iff.mpr hx), fun x hx hl => k1.mem_iff.mp (h4 x hx hl)⟩

theorem rem_nil {m : Mem} (hf : Fresh m) : Rem m.next m [] := ⟨[], by simp, rfl, by simp, fun x hx h => absurd (hf x hx) h⟩

theorem rem_stays {base : Addr} {m : Mem} {F L : List Json} {as : List Addr} (hl : Lies m F as) (hn : as.Nodup) (hnew : ∀ x ∈ as, base ≤ x) (hs : Stays base m as L)
    (hL : ∀ v ∈ L, PrimOK v) : Rem base m (F ++ L) := by
  obtain ⟨ls, k1, k2, k3, k4⟩ := hs
  refine ⟨as ++ ls, ?_, lies_append (lies_prims L k3 hL) F hl, fun x hx => ?_, fun x hx h => List.mem_append.mpr (k4 x hx h)⟩
  · refine List.nodup_append.mpr ⟨hn, k1.imp (fun h => by omega), fun x hx y hy e => ?_⟩
    subst e
    exact (k2 x hy).2 hx
  · rcases List.mem_append.mp hx with h | h
    · exact hnew x h
    · exact (k2 x h).1

theorem rem_both {base : Addr} {m m' : Mem} {F F' : List Json} (hf : Fresh m) (hb : base ≤ m.next) (h : Rem base m F) (hk : Frame m.next m m') (h' : Rem m.next m' F') :
    Rem base m' (F ++ F') := by
  obtain ⟨as, h1, h2, h3, h4⟩ := h
  obtain ⟨as', k1, k2, k3, k4⟩ := h'
  have hlt : ∀ x ∈ as, x < m.next := fun x hx => hf.lt (lies_live F h2 x hx)
  refine ⟨as ++ as', List.nodup_append.mpr ⟨h1, k1, fun x hx y hy e => ?_⟩, lies_append k2 F (lies_congr F h2 (fun x hx => hk.keep x (hlt x hx))), fun x hx => ?_, fun x hx hl => ?_⟩
  · have := hlt x hx
    have := k3 y hy
    omega
  · rcases List.mem_append.mp hx with h | h
    · exact h3 x h
    · have := k3 x h; omega
  · by_cases hxm : x < m.next
    · rw [hk.keep x hxm] at hl
      exact List.mem_append_left _ (h4 x hx hl)
    · exact List.mem_append_right _ (k4 x (by omega) hl)

theorem rem_new {m : Mem} (hf : Fresh m) {v : Json} (hv : PrimOK v) (p : Option Addr) : Rem m.next (m.new ⟨p, .prim v⟩).2 [v] := by
  refine ⟨[m.next], by simp, ⟨p, m.next, [m.next], [], rfl, stores_prim hv (by simp [Mem.new]), rfl⟩, by simp, fun x hx hl => ?_⟩
  have : x < m.next + 1 := (frame_new hf ⟨p, .prim v⟩).fresh.lt hl
  simp; omega

/-! ### How the reader with objects ends -/

/-- The reader ends for this reason, and this is the memory. -/
def Halts {α : Type} (o : HOut α) (r : Reason) (m' : Mem) : Prop :=
  match o with
  | .throw e m => r = .error e.kind ∧ m = m'
  | .uncaught u m => r = .uncaught u ∧ m = m'
  | .ub u => r = .undefined u
  | _ => False

theorem Halts.bind {α β : Type} {o : HOut α} {r : Reason} {m' : Mem} (h : Halts o r m') (f : α → St → Mem → HOut β) : Halts (o.bind f) r m' := by
  cases o with
  | ret _ _ _ => exact h.elim
  | _ => exact h

theorem token_halts {env : Env} {s : St} {r : Reason} (h : why (consumeToken env s) = some r) (p : Option Addr) (m : Mem) : Halts (token env p s m) r m := by
  unfold token
  cases hc : consumeToken env s with
  | ret t s' => rw [hc] at h; cases h
  | fuel => rw [hc] at h; cases h
  | throw e => rw [hc] at h; cases h; exact ⟨rfl, rfl⟩
  | uncaught e => rw [hc] at h; cases h; exact ⟨rfl, rfl⟩
  | ub e => rw [hc] at h; cases h; exact rfl

theorem token_nothing {env : Env} {p : Option Addr} {s s' : St} {m : Mem} (h : consumeToken env s = .ret .nothing s') : token env p s m = .ret .nothing s' m := by
  unfold token
  rw [h]

/-- Reading ends for this reason, with these documents in the memory. -/
def Strand {α : Type} (base : Addr) (mem : Mem) (o : HOut α) (r : Reason) (F : List Json) : Prop := o = .fuel ∨ ∃ m', Halts o r m' ∧ Frame base mem m' ∧ Rem base m' F

theorem Strand.bind {α β : Type} {base : Addr} {mem : Mem} {o : HOut α} {r : Reason} {F : List Json} (h : Strand base mem o r F) (f : α → St → Mem → HOut β) :
    Strand base mem (o.bind f) r F := by
  rcases h with h | ⟨m', h, h'⟩
  · left; rw [h]; rfl
  · right; exact ⟨m', h.bind f, h'⟩

theorem Strand.perm {α : Type} {base : Addr} {mem : Mem} {o : HOut α} {r : Reason} {F F' : List Json} (h : Strand base mem o r F) (hp : F.Perm F') : Strand base mem o r F' := by
  rcases h with h | ⟨m', h1, h2, h3⟩
  · exact Or.inl h
  · exact Or.inr ⟨m', h1, h2, h3.perm hp⟩

/-- What was there before, and what came to it. -/
theorem Strand.after {α : Type} {base : Addr} {mem m1 : Mem} {o : HOut α} {r : Reason} {F F' : List Json} (hb : base ≤ m1.next) (hfr : Frame base mem m1)
    (h : Rem base m1 F) (h' : Strand m1.next m1 o r F') : Strand base mem o r (F ++ F') := by
  rcases h' with h' | ⟨m', h1, h2, h3⟩
  · exact Or.inl h'
  · exact Or.inr ⟨m', h1, hfr.trans hb h2, rem_both hfr.fresh hb h h2 h3⟩

theorem frame_refl {base : Addr} {m : Mem} (hf : Fresh m) : Frame base m m := ⟨hf, Nat.le_refl _, fun _ _ => rfl⟩

theorem strand_halts {α : Type} {base : Addr} {mem m1 : Mem} {o : HOut α} {r : Reason} {F : List Json} (hfr : Frame base mem m1) (h : Rem base m1 F) (h' : Halts o r m1) :
    Strand base mem o r F := Or.inr ⟨m1, h', hfr, h⟩

theorem prim_ok {m : Mode} {t rest : Bytes} {v : Json} {ws : List ExnKind} (h : Prim m t rest v ws) : PrimOK v := by
  obtain ⟨g, h', es, k1, k2, k3⟩ := prim_complete h (LHist.init [] 0) []
  have hc : consumeToken (envM m) ⟨t ++ rest, true, LHist.init [] 0, []⟩ = .ret (.val v) ⟨rest, g, h', [] ++ es⟩ := by
    rw [consumeToken_good, k3]
  exact (Post.of_ret (consumeToken_ok (envM m) _ (by intro h; cases h)) hc).1.prim v rfl

theorem lost_prim {m : Mode} {t rest : Bytes} {v : Json} {L : List Json} (h : Lost.Value m t rest v L) : ∀ v ∈ L, PrimOK v := by
  have app : ∀ {L L' : List Json}, (∀ v ∈ L, PrimOK v) → (∀ v ∈ L', PrimOK v) → ∀ v ∈ L ++ L', PrimOK v := by
    intro L L' h h' v hv
    rcases List.mem_append.mp hv with hv | hv
    · exact h v hv
    · exact h' v hv
  refine Lost.Value.rec (m := m) (motive_1 := fun _ _ _ L _ => ∀ v ∈ L, PrimOK v) (motive_2 := fun _ _ _ L _ => ∀ v ∈ L, PrimOK v)
    (motive_3 := fun _ _ _ _ L _ => ∀ v ∈ L, PrimOK v) ?_ ?_ ?_ ?_ ?_ ?_ ?_ ?_ ?_ ?_ h
  · intros; simp_all
  · intros; simp_all
  · intro _ _ _ _ _ h; exact h
  · intros; simp_all
  · intro _ _ _ _ _ h; exact h
  · intro _ _ _ _ _ _ _ _ _ h; exact h
  · intro _ _ _ _ _ _ _ _ _ _ _ _ _ h h'; exact app h h'
  · intro _ _ _ _ _ _ _ _ _ _ _ _ _ _ _ _ _ _ _ h; exact h
  · intro _ _ _ _ _ _ _ _ _ _ _ _ _ v' _ _ _ _ _ _ _ _ hp h
    exact app h (by simpa using prim_ok hp)
  · intro _ _ _ _ _ _ _ _ _ _ _ _ _ _ _ _ _ _ _ _ _ _ _ _ _ h h'; exact app h h'

/-! ### By the derivation -/

def StrandV (m : Mode) (text : Bytes) (r : Reason) (F : List Json) : Prop :=
  ∀ hist warns f p p' mem, Fresh mem →
    Strand mem.next mem (hitem (envM m) f p p' ⟨text, true, hist, warns⟩ mem) r F ∧ Strand mem.next mem (Heap.readNext (envM m) (f + 1) p ⟨text, true, hist, warns⟩ mem) r F ∧
    ∀ s', consumeToken (envM m) ⟨text, true, hist, warns⟩ ≠ .ret (.punct 93) s'

def StrandI (m : Mode) (vs : List Json) (text : Bytes) (r : Reason) (F : List Json) : Prop :=
  ∀ hist warns f base p q ra as L0 mem, Fresh mem → base ≤ mem.next → ArrPre mem p vs ra as → (vs = [] → ra = none) → as.Nodup → (∀ x ∈ as, base ≤ x) → Stays base mem as L0 →
    (∀ v ∈ L0, PrimOK v) →
    Strand base mem ((token (envM m) q ⟨text, true, hist, warns⟩ mem).bind (fun tok s mm => arrayLoop (envM m) f p ra tok s mm)) r (F ++ L0) ∧
    (vs = [] → ∀ s', consumeToken (envM m) ⟨text, true, hist, warns⟩ ≠ .ret (.punct 93) s')

/-- The members so far, as the reader has them. -/
structure SoFar (m : Mode) (es : List (Bytes × Json)) (r0 : Option (List (Bytes × Json))) : Prop where
  same : r0.getD [] = addAll (envM m) [] es
  none : r0 = none ↔ es = []
  nodup : (keys (r0.getD [])).Nodup
  seen : ∀ x, x ∈ es.map Prod.fst ↔ x ∈ keys (r0.getD [])

def StrandM (m : Mode) (es : List (Bytes × Json)) (text : Bytes) (r : Reason) (F : List Json) : Prop :=
  ∀ hist warns f base p r0 ra as L0 mem, Fresh mem → base ≤ mem.next → ObjPre (envM m) base mem p r0 ra as → Stays base mem as L0 → (∀ v ∈ L0, PrimOK v) → SoFar m es r0 →
    Strand base mem (objectLoop (envM m) f p ra ⟨text, true, hist, warns⟩ mem) r (F ++ L0)

theorem arranged_eq (m : Mode) (es : List (Bytes × Json)) : arranged m es = addAll (envM m) [] es := by
  rw [addAll_nil]; rfl

theorem addAll_snoc (env : Env) (es0 es : List (Bytes × Json)) (k : Bytes) (v : Json) :
    addAll env es0 (es ++ [(k, v)]) = addEntry env (dropKey (addAll env es0 es) k) k v := by
  induction es generalizing es0 with
  | nil => rfl
  | cons e es ih => obtain ⟨k', v'⟩ := e; exact ih _

theorem soFar_nil (m : Mode) : SoFar m [] none := ⟨rfl, by simp, by simp [keys], by simp [keys]⟩

theorem SoFar.snoc {m : Mode} {es : List (Bytes × Json)} {r0 : Option (List (Bytes × Json))} (h : SoFar m es r0) (k : Bytes) (v : Json) :
    SoFar m (es ++ [(k, v)]) (some (addEntry (envM m) (dropKey (r0.getD []) k) k v)) := by
  have hadd := addOne_nodup (envM m) (r0.getD []) k v h.nodup
  refine ⟨?_, by simp, hadd.1, fun x => ?_⟩
  · rw [Option.getD_some, addAll_snoc, h.same]
  · rw [Option.getD_some, hadd.2 x, List.mem_cons, ← h.seen]
    simp [or_comm]

/-- What there is of an array. -/
theorem rem_arr {base : Addr} {mem : Mem} {p : Option Addr} {vs : List Json} {ra : Option Addr} {as : List Addr} {L0 : List Json} (hpre : ArrPre mem p vs ra as) (hra : vs = [] → ra = none)
    (hn : as.Nodup) (hnew : ∀ x ∈ as, base ≤ x) (hs : Stays base mem as L0) (hL : ∀ v ∈ L0, PrimOK v) : Rem base mem (array vs ++ L0) := by
  refine rem_stays (as := as) ?_ hn hnew hs hL
  cases ra with
  | none => obtain ⟨rfl, rfl⟩ := hpre; exact rfl
  | some a =>
    cases vs with
    | nil => cases hra rfl
    | cons v vs => exact ⟨p, a, as, [], by simp, ArrAt.stores hpre, rfl⟩

/-- What there is of an object. -/
theorem rem_obj {m : Mode} {base : Addr} {mem : Mem} {p : Option Addr} {es : List (Bytes × Json)} {r0 : Option (List (Bytes × Json))} {ra : Option Addr} {as : List Addr} {L0 : List Json}
    (hpre : ObjPre (envM m) base mem p r0 ra as) (hes : SoFar m es r0) (hs : Stays base mem as L0) (hL : ∀ v ∈ L0, PrimOK v) : Rem base mem (object m es ++ L0) := by
  obtain ⟨h1, h2, h3⟩ := hpre
  refine rem_stays (as := as) ?_ h1 h2 hs hL
  cases ra with
  | none =>
    cases r0 with
    | none => dsimp only at h3; subst h3; rw [hes.none.mp rfl]; exact rfl
    | some r0 => exact h3.elim
  | some a =>
    cases r0 with
    | none => exact h3.elim
    | some r0 =>
      cases es with
      | nil => cases hes.none.mpr rfl
      | cons e es =>
        refine ⟨p, a, as, [], by simp, ?_, rfl⟩
        have := hes.same
        rw [Option.getD_some] at this
        rw [arranged_eq, ← this]
        exact ObjAt.stores h3

theorem array_snoc (vs : List Json) (v : Json) : array (vs ++ [v]) = [.arr (vs ++ [v])] := by
  cases vs <;> rfl

/-- After the key of a member. -/
def hcolon (env : Env) (f : Nat) (p ra : Option Addr) (k : Addr) (key : Bytes) (tok : HTok) (s : St) (m : Mem) : HOut Addr :=
  match tok with
  | .punct c =>
    if c ≠ 58 then .throw ⟨.unexpected 58, s.hist⟩ m
    else (result env p ra key s m).bind fun r s m => (Heap.readNext env f (some r) s m).bind (hchild env f p r k key)
  | _ => .throw ⟨.unexpected 58, s.hist⟩ m

/-- Up to the colon of a member. -/
theorem reach_key {m : Mode} {text k x : Bytes} (hk : Key m text k) (hist : LHist) (warns : List Exn) (f : Nat) (p ra : Option Addr) (mem : Mem) :
    ∃ s1 w2, objectLoop (envM m) (f + 1) p ra ⟨text ++ x, true, hist, warns⟩ mem =
        (token (envM m) p s1 (mem.new ⟨ra, .prim (.str k)⟩).2).bind (hcolon (envM m) f p ra mem.next k) ∧ s1.rest = w2 ++ x ∧ Blank w2 ∧ s1.good = true := by
  obtain ⟨s1, w2, h1, h2, h3, h4⟩ := at_key (m := m) (s := ⟨text ++ x, true, hist, warns⟩) rfl hk rfl
  refine ⟨s1, w2, ?_, h2, h3, h4⟩
  rw [Heap.objectLoop, token_val h1]
  simp only [HOut.bind]
  have hkget : (mem.new ⟨ra, .prim (.str k)⟩).2.get mem.next = some ⟨ra, .prim (.str k)⟩ := by simp [Mem.new]
  rw [hkget]
  simp only
  cases token (envM m) p s1 (mem.new ⟨ra, .prim (.str k)⟩).2 with
  | ret tok s mm =>
    cases tok with
    | punct c => rfl
    | _ => rfl
  | _ => rfl

theorem result_double {m : Mode} {base : Addr} {mem : Mem} {p : Option Addr} {r0 : Option (List (Bytes × Json))} {ra : Option Addr} {as : List Addr} {k : Bytes}
    (hpre : ObjPre (envM m) base mem p r0 ra as) (hk : k ∈ keys (r0.getD [])) (hs : m.strict = true) (s : St) :
    result (envM m) p ra k s mem = .throw ⟨.doubleKey k, s.hist⟩ mem := by
  obtain ⟨hn, hb, hp⟩ := hpre
  cases r0 with
  | none => simp [keys] at hk
  | some es =>
    cases ra with
    | none => exact hp.elim
    | some a =>
      have hc := contains_spec k hp hn
      rw [(contains_iff es k).mpr hk] at hc
      have hst : (envM m).strictOr = true := hs
      simp [result, hc, hst]

theorem perm_mid (a b c : List Json) : (a ++ (b ++ c)).Perm (a ++ c ++ b) := by
  rw [List.append_assoc]
  exact List.perm_append_comm.append_left _

theorem perm_end (a b : List Json) (v : Json) : (a ++ b ++ [v]).Perm (a ++ [v] ++ b) := by
  rw [List.append_assoc, List.append_assoc]
  exact List.perm_append_comm.append_left _

theorem no93 {m : Mode} {t rest : Bytes} {v : Json} {L : List Json} (h : Lost.Value m t rest v L) {w : Bytes} (hw : Blank w) {hist : LHist} {warns : List Exn} (s' : St) :
    consumeToken (envM m) ⟨w ++ t ++ rest, true, hist, warns⟩ ≠ .ret (.punct 93) s' := by
  intro e
  have := leaves m h w hist warns 0 none none Mem.empty hw (fun _ _ => rfl)
  unfold hitem at this
  rw [token_punct e] at this
  simp [HOut.bind] at this

theorem blanks {w w' : Bytes} (h : Blank w) (h' : Blank w') : Blank (w ++ w') := by
  intro y hy
  rcases List.mem_append.mp hy with hy | hy
  · exact h y hy
  · exact h' y hy

theorem strands (m : Mode) {text : Bytes} {r : Reason} {F : List Json} (h : Stranded.Value m text r F) : StrandV m text r F := by
  have upto : ∀ {rest : Bytes} {s : St}, Upto rest s → Going s := by
    rintro rest s ⟨rfl, h⟩; exact h
  refine Stranded.Value.rec (m := m) (motive_1 := fun text r F _ => StrandV m text r F) (motive_2 := fun vs text r F _ => StrandI m vs text r F)
    (motive_3 := fun es text r F _ => StrandM m es text r F) ?_ ?_ ?_ ?_ ?_ ?_ ?_ ?_ ?_ ?_ ?_ ?_ ?_ ?_ ?_ ?_ ?_ ?_ ?_ ?_ h
  · intro w x r hw hb hist warns f p p' mem hf
    have hc := at_bad (m := m) (s := ⟨w ++ x, true, hist, warns⟩) (Or.inl rfl) rfl hw hb
    have ht := fun p => token_halts hc p mem
    refine ⟨strand_halts (frame_refl hf) (rem_nil hf) ((ht p).bind _), strand_halts (frame_refl hf) (rem_nil hf) ?_, fun s' h => by rw [h] at hc; cases hc⟩
    rw [Heap.readNext]
    exact (ht p).bind _
  · -- an array begins
    intro w y r ls hw _ ih hist warns f p p' mem hf
    obtain ⟨s1, k1, k2, k3⟩ := at_sign (m := m) (s := ⟨w ++ b!"[" ++ y, true, hist, warns⟩) (Or.inl rfl) rfl hw (by simp)
    have es1 : s1 = ⟨y, true, s1.hist, s1.warns⟩ := by cases s1; simp only at k2 k3; subst k2; subst k3; rfl
    have key : ∀ f p', Strand mem.next mem (Heap.readArray (envM m) f p' s1 mem) r ls := by
      intro f p'
      cases f with
      | zero => left; rw [Heap.readArray]
      | succ f =>
        have hi := ih s1.hist s1.warns f mem.next p' p' none [] [] mem hf (Nat.le_refl _) ⟨rfl, rfl⟩ (fun _ => rfl) (by simp) (by simp) (stays_nil hf) (by simp)
        rw [← es1, List.append_nil] at hi
        have heq : Heap.readArray (envM m) (f + 1) p' s1 mem = (token (envM m) p' s1 mem).bind (fun tok s mm => Heap.arrayLoop (envM m) f p' none tok s mm) := by
          rw [Heap.readArray]
          cases htok : token (envM m) p' s1 mem with
          | ret tok s2 m2 =>
            simp only [HOut.bind]
            cases tok with
            | punct c =>
              by_cases hc : c = 93
              · exfalso
                subst hc
                unfold token at htok
                cases hct : consumeToken (envM m) s1 with
                | ret t s3 =>
                  rw [hct] at htok
                  cases t with
                  | val v => cases htok
                  | nothing => cases htok
                  | punct c => cases htok; exact hi.2 rfl s2 hct
                | _ => rw [hct] at htok; cases htok
              · simp only [if_neg hc]
            | _ => rfl
          | _ => rfl
        rw [heq]
        exact hi.1
    refine ⟨?_, ?_, fun s' h => by rw [k1] at h; cases h⟩
    · unfold hitem
      rw [token_punct k1]
      simp only [HOut.bind, if_true]
      exact key f p'
    · rw [Heap.readNext, token_punct k1]
      simp only [HOut.bind]
      rw [if_neg (by decide), if_pos True.intro]
      exact (key f p).bind _
  · -- an object begins
    intro w y r ls hw _ ih hist warns f p p' mem hf
    obtain ⟨s1, k1, k2, k3⟩ := at_sign (m := m) (s := ⟨w ++ b!"{" ++ y, true, hist, warns⟩) (Or.inl rfl) rfl hw (by simp)
    have es1 : s1 = ⟨y, true, s1.hist, s1.warns⟩ := by cases s1; simp only at k2 k3; subst k2; subst k3; rfl
    have key : ∀ f p', Strand mem.next mem (Heap.objectLoop (envM m) f p' none s1 mem) r ls := by
      intro f p'
      have hi := ih s1.hist s1.warns f mem.next p' none none [] [] mem hf (Nat.le_refl _) ⟨by simp, by simp, rfl⟩ (stays_nil hf) (by simp) (soFar_nil m)
      rw [← es1, List.append_nil] at hi
      exact hi
    refine ⟨?_, ?_, fun s' h => by rw [k1] at h; cases h⟩
    · unfold hitem
      rw [token_punct k1]
      simp only [HOut.bind]
      rw [if_neg (by decide), if_pos True.intro]
      exact key f p'
    · rw [Heap.readNext, token_punct k1]
      simp only [HOut.bind, if_true]
      exact (key f p).bind _
  · -- an item ends the reader
    intro vs x r ls _ ih hist warns f base p q ra as L0 mem hf hb hpre hra hn hnew hs hL
    refine ⟨?_, fun _ => (ih hist warns 0 none none mem hf).2.2⟩
    refine Strand.perm (F := (array vs ++ L0) ++ ls) ?_ (by rw [List.append_assoc, List.append_assoc]; exact List.perm_append_comm.append_left _)
    refine Strand.after hb (frame_refl hf) (rem_arr hpre hra hn hnew hs hL) ?_
    cases f with
    | succ f =>
      rw [arrayLoop_hitem]
      exact (ih hist warns f q none mem hf).1.bind _
    | zero =>
      have h0 := (ih hist warns 0 q none mem hf).1
      unfold hitem at h0
      cases htok : token (envM m) q ⟨x, true, hist, warns⟩ mem with
      | ret tok s m => left; simp only [HOut.bind]; rw [Heap.arrayLoop]
      | _ => rw [htok] at h0; exact h0
  · -- there is no item
    intro vs x hx hist warns f base p q ra as L0 mem hf hb hpre hra hn hnew hs hL
    have hc : ∃ tok s', token (envM m) q ⟨x, true, hist, warns⟩ mem = .ret tok s' mem ∧ (tok = .nothing ∨ ∃ c, tok = .punct c ∧ c ≠ 91 ∧ c ≠ 123) ∧
        (vs = [] → ∀ s', consumeToken (envM m) ⟨x, true, hist, warns⟩ ≠ .ret (.punct 93) s') := by
      rcases hx with hx | ⟨w, c, y, e, hw, hc⟩
      · obtain ⟨s1, k, -⟩ := at_none (m := m) (s := ⟨x, true, hist, warns⟩) (Or.inl rfl) hx
        exact ⟨_, s1, token_nothing k, Or.inl rfl, fun _ s' h => by rw [k] at h; cases h⟩
      · obtain ⟨s1, k, -⟩ := at_sign (m := m) (s := ⟨x, true, hist, warns⟩) (Or.inl rfl) e hw (by by_cases hv : vs = [] <;> simp [hv] at hc ⊢ <;> omega)
        refine ⟨_, s1, token_punct k, Or.inr ⟨c, rfl, ?_, ?_⟩, fun hv s' h => ?_⟩
        · by_cases hv : vs = [] <;> simp [hv] at hc <;> omega
        · by_cases hv : vs = [] <;> simp [hv] at hc <;> omega
        · rw [k] at h
          cases h
          simp [hv] at hc
    obtain ⟨tok, s1, k, hk, h93⟩ := hc
    refine ⟨?_, h93⟩
    rw [k]
    simp only [HOut.bind]
    cases f with
    | zero => left; rw [Heap.arrayLoop]
    | succ f =>
      refine strand_halts (frame_refl hf) (rem_arr hpre hra hn hnew hs hL) ?_
      rw [Heap.arrayLoop.eq_def]
      rcases hk with rfl | ⟨c, rfl, h1, h2⟩
      · exact ⟨rfl, rfl⟩
      · simp only
        rw [if_neg h1, if_neg h2]
        exact ⟨rfl, rfl⟩
  · -- the separator ends the reader
    rintro vs t w x r v ls ⟨w0, t, rfl, hw0, hv⟩ hw hbad hist warns f base p q ra as L0 mem hf hb hpre hra hn hnew hs hL
    have hlv := leaves m hv
    have hL' : ∀ v ∈ L0 ++ ls, PrimOK v := fun v h => (List.mem_append.mp h).elim (hL v) (lost_prim hv v)
    rw [List.append_assoc]
    refine ⟨?_, fun _ => no93 hv hw0⟩
    cases f with
    | zero => left; exact leave_zero hlv hw0 hist warns p q ra hf
    | succ f =>
      rcases reach_item hlv hw0 hist warns f q hf hb hpre hn hnew hs with h | ⟨r', s', mem3, as3, h, hu, g3, g4, g5, g6, g7⟩
      · exact Or.inl h
      rw [h]
      refine strand_halts g3 ((rem_arr (vs := vs ++ [v]) (ra := some r') g4 (by simp) g5 g6 g7 hL').perm (perm_mid _ _ _)) ((token_halts (at_bad (upto hu) hu.1 hw hbad) _ _).bind _)
  · -- there is no separator
    rintro vs t x v ls ⟨w0, t, rfl, hw0, hv⟩ hx hist warns f base p q ra as L0 mem hf hb hpre hra hn hnew hs hL
    have hlv := leaves m hv
    have hL' : ∀ v ∈ L0 ++ ls, PrimOK v := fun v h => (List.mem_append.mp h).elim (hL v) (lost_prim hv v)
    refine ⟨?_, fun _ => no93 hv hw0⟩
    cases f with
    | zero => left; exact leave_zero hlv hw0 hist warns p q ra hf
    | succ f =>
      rcases reach_item hlv hw0 hist warns f q hf hb hpre hn hnew hs with h | ⟨r', s', mem3, as3, h, hu, g3, g4, g5, g6, g7⟩
      · exact Or.inl h
      rw [h]
      refine strand_halts g3 ((rem_arr (vs := vs ++ [v]) (ra := some r') g4 (by simp) g5 g6 g7 hL').perm (perm_mid _ _ _)) ?_
      rw [← hu.1] at hx
      rcases hx with hx | ⟨w, c, y, e, hw, hc⟩
      · obtain ⟨s2, k, -⟩ := at_none (upto hu) hx
        rw [token_nothing k]; exact ⟨rfl, rfl⟩
      · obtain ⟨s2, k, -⟩ := at_sign (m := m) (upto hu) e hw (by simp at hc ⊢; omega)
        rw [token_punct k]
        simp at hc
        simp only [HOut.bind, hsep]
        rw [if_neg (by omega), if_neg (by omega)]
        exact ⟨rfl, rfl⟩
  · -- a value instead of a separator
    rintro vs t x v ls v' ⟨w0, t, rfl, hw0, hv⟩ ⟨w, t', rest, ws, e, hw, hp⟩ hist warns f base p q ra as L0 mem hf hb hpre hra hn hnew hs hL
    have hlv := leaves m hv
    have hL' : ∀ v ∈ L0 ++ ls, PrimOK v := fun v h => (List.mem_append.mp h).elim (hL v) (lost_prim hv v)
    refine ⟨?_, fun _ => no93 hv hw0⟩
    cases f with
    | zero => left; exact leave_zero hlv hw0 hist warns p q ra hf
    | succ f =>
      rcases reach_item hlv hw0 hist warns f q hf hb hpre hn hnew hs with h | ⟨r', s', mem3, as3, h, hu, g3, g4, g5, g6, g7⟩
      · exact Or.inl h
      rw [h]
      have hrem := (rem_arr (vs := vs ++ [v]) (ra := some r') g4 (by simp) g5 g6 g7 hL').perm (perm_mid _ _ _)
      have e' : s'.rest = w ++ t' ++ rest := by rw [hu.1, e]
      obtain ⟨s2, k, -⟩ := at_prim (prim_rest e' hp) (upto hu) e' hw hp
      have hg := g3.grow
      have hfr := frame_new g3.fresh ⟨some r', .prim v'⟩
      rw [token_val k]
      refine Strand.perm (F := (array (vs ++ [v]) ++ ls ++ L0) ++ [v']) ?_ (perm_end _ _ _)
      exact strand_halts (g3.trans (by omega) hfr) (rem_both g3.fresh (by omega) hrem hfr (rem_new g3.fresh (prim_ok hp) _)) ⟨rfl, rfl⟩
  · -- more items
    rintro vs t w x r v ls ls' ⟨w0, t, rfl, hw0, hv⟩ hw _ ih hist warns f base p q ra as L0 mem hf hb hpre hra hn hnew hs hL
    have hlv := leaves m hv
    have hL' : ∀ v ∈ L0 ++ ls, PrimOK v := fun v h => (List.mem_append.mp h).elim (hL v) (lost_prim hv v)
    rw [show w0 ++ t ++ w ++ b!"," ++ x = w0 ++ t ++ (w ++ b!"," ++ x) by simp]
    refine ⟨?_, fun _ => no93 hv hw0⟩
    cases f with
    | zero => left; exact leave_zero hlv hw0 hist warns p q ra hf
    | succ f =>
      rcases reach_item hlv hw0 hist warns f q hf hb hpre hn hnew hs with h | ⟨r', s', mem3, as3, h, hu, g3, g4, g5, g6, g7⟩
      · exact Or.inl h
      rw [h]
      obtain ⟨s2, l1, l2, l3⟩ := at_sign (m := m) (upto hu) hu.1 hw (by simp)
      have es2 : s2 = ⟨x, true, s2.hist, s2.warns⟩ := by cases s2; simp only at l2 l3; subst l2; subst l3; rfl
      rw [token_punct l1]
      simp only [HOut.bind, hsep]
      rw [if_neg (by decide), if_pos True.intro]
      have hg := g3.grow
      have hi := (ih s2.hist s2.warns f base p (some r') (some r') as3 (L0 ++ ls) mem3 g3.fresh (by omega) g4 (by simp) g5 g6 g7 hL').1
      rw [← es2] at hi
      refine (Strand.perm hi (perm_mid _ _ _)).imp id ?_
      rintro ⟨m', k1, k2, k3⟩
      exact ⟨m', k1, g3.trans (Nat.le_refl _) k2, k3⟩
  · -- the key ends the reader
    intro es w x r hw hbad hist warns f base p r0 ra as L0 mem hf hb hpre hs hL hes
    cases f with
    | zero => left; rw [Heap.objectLoop]
    | succ f =>
      rw [Heap.objectLoop]
      exact strand_halts (frame_refl hf) (rem_obj hpre hes hs hL) ((token_halts (at_bad (m := m) (s := ⟨w ++ x, true, hist, warns⟩) (Or.inl rfl) rfl hw hbad) _ _).bind _)
  · -- there is no key
    intro es x hx hist warns f base p r0 ra as L0 mem hf hb hpre hs hL hes
    cases f with
    | zero => left; rw [Heap.objectLoop]
    | succ f =>
      rw [Heap.objectLoop]
      refine strand_halts (frame_refl hf) (rem_obj hpre hes hs hL) ?_
      rcases hx with hx | ⟨w, c, y, e, hw, hc⟩
      · obtain ⟨s1, k, -⟩ := at_none (m := m) (s := ⟨x, true, hist, warns⟩) (Or.inl rfl) hx
        rw [token_nothing k]; exact ⟨rfl, rfl⟩
      · obtain ⟨s1, k, -⟩ := at_sign (m := m) (s := ⟨x, true, hist, warns⟩) (Or.inl rfl) e hw (by by_cases hv : es = [] <;> simp [hv] at hc ⊢ <;> omega)
        rw [token_punct k]
        simp only [HOut.bind]
        rw [if_neg]
        · exact ⟨rfl, rfl⟩
        · rintro ⟨h1, h2⟩
          by_cases hv : es = []
          · simp [hv] at hc; omega
          · cases ra with
            | some a => simp at h1
            | none =>
              cases r0 with
              | none => exact hv (hes.none.mp rfl)
              | some r0 => exact hpre.2.2.elim
  · -- a value that is no key
    rintro es x v ⟨w, t, rest, ws, rfl, hw, hp⟩ hnot hist warns f base p r0 ra as L0 mem hf hb hpre hs hL hes
    cases f with
    | zero => left; rw [Heap.objectLoop]
    | succ f =>
      obtain ⟨s1, k, -⟩ := at_prim (m := m) (s := ⟨w ++ t ++ rest, true, hist, warns⟩) (prim_rest rfl hp) (Or.inl rfl) rfl hw hp
      have hfr := frame_new hf ⟨ra, .prim v⟩
      refine Strand.perm (F := (object m es ++ L0) ++ [v]) ?_ (perm_end _ _ _)
      refine strand_halts ((frame_refl hf).trans hb hfr) (rem_both hf hb (rem_obj hpre hes hs hL) hfr (rem_new hf (prim_ok hp) _)) ?_
      rw [Heap.objectLoop, token_val k]
      simp only [HOut.bind]
      have hkget : (mem.new ⟨ra, .prim v⟩).2.get mem.next = some ⟨ra, .prim v⟩ := by simp [Mem.new]
      rw [hkget]
      cases v with
      | str x => exact absurd rfl (hnot x)
      | _ => exact ⟨rfl, rfl⟩
  · -- the colon ends the reader
    intro es t k x r hk hbad hist warns f base p r0 ra as L0 mem hf hb hpre hs hL hes
    cases f with
    | zero => left; rw [Heap.objectLoop]
    | succ f =>
      obtain ⟨s1, w2, h, h1, h2, h3⟩ := reach_key (x := x) hk hist warns f p ra mem
      rw [h]
      have hfr := frame_new hf ⟨ra, .prim (.str k)⟩
      refine Strand.perm (F := (object m es ++ L0) ++ [.str k]) ?_ (perm_end _ _ _)
      exact strand_halts ((frame_refl hf).trans hb hfr) (rem_both hf hb (rem_obj hpre hes hs hL) hfr (rem_new (v := .str k) hf True.intro _)) ((token_halts (at_bad (Or.inl h3) h1 h2 hbad) _ _).bind _)
  · -- there is no colon
    intro es t k x hk hx hist warns f base p r0 ra as L0 mem hf hb hpre hs hL hes
    cases f with
    | zero => left; rw [Heap.objectLoop]
    | succ f =>
      obtain ⟨s1, w2, h, h1, h2, h3⟩ := reach_key (x := x) hk hist warns f p ra mem
      rw [h]
      have hfr := frame_new hf ⟨ra, .prim (.str k)⟩
      refine Strand.perm (F := (object m es ++ L0) ++ [.str k]) ?_ (perm_end _ _ _)
      refine strand_halts ((frame_refl hf).trans hb hfr) (rem_both hf hb (rem_obj hpre hes hs hL) hfr (rem_new (v := .str k) hf True.intro _)) ?_
      rcases hx with hx | ⟨w, c, y, e, hw, hc⟩
      · have hx : NoToken m s1.rest := by
          rw [h1]
          cases hx with
          | blank hw => exact .blank (blanks h2 hw)
          | @str w t v ws y hw k1 k2 => have := NoToken.str (m := m) (blanks h2 hw) k1 k2; simpa using this
          | @null w c z hw k1 k2 k3 => have := NoToken.null (m := m) (blanks h2 hw) k1 k2 k3; simpa using this
        obtain ⟨s2, k, -⟩ := at_none (Or.inl h3) hx
        rw [token_nothing k]; exact ⟨rfl, rfl⟩
      · obtain ⟨s2, k, -⟩ := at_sign (m := m) (Or.inl h3) (w := w2 ++ w) (y := y) (c := c) (by rw [h1, e]; simp) (blanks h2 hw) (by simp at hc ⊢; omega)
        rw [token_punct k]
        simp at hc
        simp only [HOut.bind, hcolon]
        rw [if_pos (by omega)]
        exact ⟨rfl, rfl⟩
  · -- a value instead of the colon
    rintro es t k x v hk ⟨w, t', rest, ws, e, hw, hp⟩ hist warns f base p r0 ra as L0 mem hf hb hpre hs hL hes
    cases f with
    | zero => left; rw [Heap.objectLoop]
    | succ f =>
      obtain ⟨s1, w2, h, h1, h2, h3⟩ := reach_key (x := x) hk hist warns f p ra mem
      rw [h]
      have e' : s1.rest = (w2 ++ w) ++ t' ++ rest := by rw [h1, e]; simp
      obtain ⟨s2, k', -⟩ := at_prim (prim_rest e' hp) (Or.inl h3) e' (blanks h2 hw) hp
      have hfr := frame_new hf ⟨ra, .prim (.str k)⟩
      have hfr2 := frame_new hfr.fresh ⟨p, .prim v⟩
      have hfr' := (frame_refl (base := base) hf).trans hb hfr
      have hg := hfr'.grow
      refine Strand.perm (F := (object m es ++ L0) ++ [.str k] ++ [v]) ?_ (((perm_end _ _ _).append_right _).trans (by
        have := perm_end (object m es ++ [.str k]) L0 v
        simpa using this))
      refine strand_halts (hfr'.trans (by omega) hfr2) (rem_both hfr.fresh (by omega) (rem_both hf hb (rem_obj hpre hes hs hL) hfr (rem_new (v := .str k) hf True.intro _)) hfr2 (rem_new hfr.fresh (prim_ok hp) _)) ?_
      rw [token_val k']
      exact ⟨rfl, rfl⟩
  · -- a repeated key
    intro es t k x hk hnew hist warns f base p r0 ra as L0 mem hf hb hpre hs hL hes
    have hstrict : m.strict = true ∧ k ∈ es.map Prod.fst := by
      unfold New at hnew
      simpa [Classical.not_imp] using hnew
    cases f with
    | zero => left; rw [Heap.objectLoop]
    | succ f =>
      rw [List.append_assoc]
      obtain ⟨s1, w2, h, h1, h2, h3⟩ := reach_key (x := b!":" ++ x) hk hist warns f p ra mem
      rw [h]
      have hfr := frame_new hf ⟨ra, .prim (.str k)⟩
      obtain ⟨s2, k1, k2, k3⟩ := at_sign (m := m) (Or.inl h3) (by rw [h1, List.append_assoc]) h2 (c := 58) (by simp)
      have hpre1 : ObjPre (envM m) base (mem.new ⟨ra, .prim (.str k)⟩).2 p r0 ra as := by
        obtain ⟨i1, i2, h⟩ := hpre
        refine ⟨i1, i2, ?_⟩
        cases r0 <;> cases ra <;> first | exact h | skip
        exact ObjAt.congr h (fun x hx => hfr.keep x (hf.lt (stores_live _ (ObjAt.stores h) x hx)))
      refine Strand.perm (F := (object m es ++ L0) ++ [.str k]) ?_ (perm_end _ _ _)
      refine strand_halts ((frame_refl hf).trans hb hfr) (rem_both hf hb (rem_obj hpre hes hs hL) hfr (rem_new (v := .str k) hf True.intro _)) ?_
      rw [token_punct k1]
      simp only [HOut.bind, hcolon]
      rw [if_neg (by simp), result_double hpre1 ((hes.seen k).mp hstrict.2) hstrict.1]
      exact ⟨rfl, rfl⟩
  · -- the value ends the reader
    rintro es t k x r ls ⟨w1, key, wk, w2, rfl, hw1, hk, hw2⟩ hnew _ ih hist warns f base p r0 ra as L0 mem hf hb hpre hs hL hes
    cases f with
    | zero => left; rw [Heap.objectLoop]
    | succ f =>
      rw [show w1 ++ [34] ++ key ++ [34] ++ w2 ++ b!":" ++ x = w1 ++ (34 :: (key ++ 34 :: (w2 ++ (58 :: x)))) by simp]
      obtain ⟨r', s2, m', as', h, i1, i2, hfr', hgrow, g1, g2, hbas, hkas', hkget, ht'⟩ := reach_colon (seen := es.map Prod.fst) (x := x) hw1 hk hw2 hnew hist warns hf hb hpre hs hes.seen
      rw [h f]
      have es2 : s2 = ⟨x, true, s2.hist, s2.warns⟩ := by cases s2; simp only at i1 i2; subst i1; subst i2; rfl
      cases f with
      | zero => left; rw [Heap.readNext]; rfl
      | succ f =>
        have hi := (ih s2.hist s2.warns f (some r') none m' hfr'.fresh).2.1
        rw [← es2] at hi
        have hrem : Rem base m' (([.str k, .obj (dropKey (r0.getD []) k)] : List Json) ++ L0) := by
          refine rem_stays (as := mem.next :: as') ?_ (List.nodup_cons.mpr ⟨hkas', g2⟩) (by simpa [hb] using hbas) ht' hL
          exact ⟨ra, mem.next, [mem.next], as', rfl, stores_prim (v := .str k) True.intro hkget, p, r', as', [], by simp, g1.stores, rfl⟩
        rw [dropKey_eq _ _ hes.nodup, hes.same, ← arranged_eq] at hrem
        refine Strand.perm (Strand.after (by omega) hfr' (hrem.perm ((List.Perm.swap _ _ _).append_right _)) (hi.bind _)) ?_
        exact (by rw [List.append_assoc, List.append_assoc]; exact List.perm_append_comm.append_left _)
  · -- the separator ends the reader
    rintro es t k u w x r v ls ⟨w1, key, wk, w2, rfl, hw1, hk, hw2⟩ hnew ⟨w3, t, rfl, hw3, hv⟩ hw hbad hist warns f base p r0 ra as L0 mem hf hb hpre hs hL hes
    have hL' : ∀ v ∈ L0 ++ ls, PrimOK v := fun v h => (List.mem_append.mp h).elim (hL v) (lost_prim hv v)
    cases f with
    | zero => left; rw [Heap.objectLoop]
    | succ f =>
      rw [show w1 ++ [34] ++ key ++ [34] ++ w2 ++ b!":" ++ (w3 ++ t) ++ w ++ x = w1 ++ (34 :: (key ++ 34 :: (w2 ++ (58 :: (w3 ++ t ++ (w ++ x)))))) by simp]
      rcases reach_member (seen := es.map Prod.fst) hw1 hk hw2 hnew hw3 (leaves m hv) hist warns f hf hb hpre hs hes.seen with h | ⟨r', s', mem3, as3, h, hu, g3, g4, g5, g6, g7⟩
      · exact Or.inl h
      rw [h]
      exact strand_halts g3 ((rem_obj (ra := some r') ⟨g5, g6, g4⟩ (hes.snoc k v) g7 hL').perm (perm_mid _ _ _)) ((token_halts (at_bad (upto hu) hu.1 hw hbad) _ _).bind _)
  · -- the input ends
    rintro es t k u x v ls ⟨w1, key, wk, w2, rfl, hw1, hk, hw2⟩ hnew ⟨w3, t, rfl, hw3, hv⟩ hx hist warns f base p r0 ra as L0 mem hf hb hpre hs hL hes
    have hL' : ∀ v ∈ L0 ++ ls, PrimOK v := fun v h => (List.mem_append.mp h).elim (hL v) (lost_prim hv v)
    cases f with
    | zero => left; rw [Heap.objectLoop]
    | succ f =>
      rw [show w1 ++ [34] ++ key ++ [34] ++ w2 ++ b!":" ++ (w3 ++ t) ++ x = w1 ++ (34 :: (key ++ 34 :: (w2 ++ (58 :: (w3 ++ t ++ x))))) by simp]
      rcases reach_member (seen := es.map Prod.fst) hw1 hk hw2 hnew hw3 (leaves m hv) hist warns f hf hb hpre hs hes.seen with h | ⟨r', s', mem3, as3, h, hu, g3, g4, g5, g6, g7⟩
      · exact Or.inl h
      rw [h]
      rw [← hu.1] at hx
      obtain ⟨s2, k', hk'⟩ := at_none (upto hu) hx
      rw [token_nothing k']
      simp only [HOut.bind, hosep]
      cases f with
      | zero => left; rw [Heap.objectLoop]
      | succ f =>
        refine strand_halts g3 ((rem_obj (ra := some r') ⟨g5, g6, g4⟩ (hes.snoc k v) g7 hL').perm (perm_mid _ _ _)) ?_
        rw [Heap.objectLoop, token_nothing (by unfold consumeToken; rw [if_neg (by simp [hk'])])]
        exact ⟨rfl, rfl⟩
  · -- more members
    rintro es t k u w c x r v ls ls' ⟨w1, key, wk, w2, rfl, hw1, hk, hw2⟩ hnew ⟨w3, t, rfl, hw3, hv⟩ hw hc _ ih hist warns f base p r0 ra as L0 mem hf hb hpre hs hL hes
    have hL' : ∀ v ∈ L0 ++ ls, PrimOK v := fun v h => (List.mem_append.mp h).elim (hL v) (lost_prim hv v)
    cases f with
    | zero => left; rw [Heap.objectLoop]
    | succ f =>
      rw [show w1 ++ [34] ++ key ++ [34] ++ w2 ++ b!":" ++ (w3 ++ t) ++ w ++ [c] ++ x = w1 ++ (34 :: (key ++ 34 :: (w2 ++ (58 :: (w3 ++ t ++ (w ++ [c] ++ x)))))) by simp]
      rcases reach_member (seen := es.map Prod.fst) hw1 hk hw2 hnew hw3 (leaves m hv) hist warns f hf hb hpre hs hes.seen with h | ⟨r', s', mem3, as3, h, hu, g3, g4, g5, g6, g7⟩
      · exact Or.inl h
      rw [h]
      obtain ⟨s2, l1, l2, l3⟩ := at_sign (m := m) (upto hu) hu.1 hw (by simp at hc ⊢; omega)
      have es2 : s2 = ⟨x, true, s2.hist, s2.warns⟩ := by cases s2; simp only at l2 l3; subst l2; subst l3; rfl
      rw [token_punct l1]
      simp only [HOut.bind, hosep]
      rw [if_neg (by simp at hc; omega)]
      have hg := g3.grow
      have hi := ih s2.hist s2.warns f base p _ (some r') as3 (L0 ++ ls) mem3 g3.fresh (by omega) ⟨g5, g6, g4⟩ g7 hL' (hes.snoc k v)
      rw [← es2] at hi
      refine (Strand.perm hi (perm_mid _ _ _)).imp id ?_
      rintro ⟨m', k1, k2, k3⟩
      exact ⟨m', k1, g3.trans (Nat.le_refl _) k2, k3⟩

/-! ### Every end is described -/

theorem whole_of_padded {m : Mode} {t x : Bytes} (h : Padded m t x) : ∃ v ls, Whole m t x v ls := by
  obtain ⟨w, u, v, ws, rfl, hw, hv⟩ := h
  obtain ⟨ls, hl⟩ := lost_of_value hv
  exact ⟨v, ls, w, u, rfl, hw, hl⟩

theorem stray_of_plain {m : Mode} {x : Bytes} (h : Refused.Plain m x) : ∃ v, Stray m x v := by
  obtain ⟨w, t, rest, v, ws, e, hw, hp⟩ := h
  exact ⟨v, w, t, rest, ws, e, hw, hp⟩

theorem described (m : Mode) {text : Bytes} {r : Reason} (h : StopsValue m text r) (hr : r ≠ .undefined .nullChild) : ∃ F, Stranded.Value m text r F := by
  refine StopsValue.rec (m := m) (motive_1 := fun text r _ => r ≠ .undefined .nullChild → ∃ F, Stranded.Value m text r F)
    (motive_2 := fun first text r _ => r ≠ .undefined .nullChild → ∀ vs, (first = true ↔ vs = []) → ∃ F, Stranded.Items m vs text r F)
    (motive_3 := fun first seen text r _ => r ≠ .undefined .nullChild → ∀ es : List (Bytes × Json), (first = true ↔ es = []) → (∀ x, x ∈ seen ↔ x ∈ es.map Prod.fst) → ∃ F, Stranded.Members m es text r F)
    ?_ ?_ ?_ ?_ ?_ ?_ ?_ ?_ ?_ ?_ ?_ ?_ ?_ ?_ ?_ ?_ ?_ ?_ h hr
  · intro w x r hw hb _; exact ⟨_, .token hw hb⟩
  · intro w y r hw _ ih hr
    obtain ⟨F, h⟩ := ih hr [] (by simp)
    exact ⟨F, .array hw h⟩
  · intro w y r hw _ ih hr
    obtain ⟨F, h⟩ := ih hr [] (by simp) (by simp)
    exact ⟨F, .object hw h⟩
  · intro first x r _ ih hr vs _
    obtain ⟨F, h⟩ := ih hr
    exact ⟨_, .item h⟩
  · intro first x hx _ vs hv
    refine ⟨_, .noItem (hx.imp_right ?_)⟩
    cases first
    · have : vs ≠ [] := fun e => by simpa using hv.mpr e
      simp [this]
    · simp [hv.mp rfl]
  · intro first t w x r hp hw hb _ vs _
    obtain ⟨v, ls, h⟩ := whole_of_padded hp
    exact ⟨_, .separator h hw hb⟩
  · intro first t x hp hx _ vs _
    obtain ⟨v, ls, h⟩ := whole_of_padded hp
    rcases hx with hx | hx | hx
    · exact ⟨_, .noSeparator h (Or.inl hx)⟩
    · exact ⟨_, .noSeparator h (Or.inr hx)⟩
    · obtain ⟨v', h'⟩ := stray_of_plain hx
      exact ⟨_, .stray h h'⟩
  · intro first t w x r hp hw _ ih hr vs _
    obtain ⟨v, ls, h⟩ := whole_of_padded hp
    obtain ⟨F, hF⟩ := ih hr (vs ++ [v]) (by simp)
    exact ⟨_, .more h hw hF⟩
  · intro first seen w x r hw hb _ es _ _
    exact ⟨_, .key hw hb⟩
  · intro first seen x hx _ es he _
    rcases hx with hx | hx | ⟨w, t, rest, v, ws, e, hw, hp, hv⟩
    · exact ⟨_, .noKey (Or.inl hx)⟩
    · refine ⟨_, .noKey (Or.inr ?_)⟩
      cases first
      · rw [if_neg (fun e => by simpa using he.mpr e)]; exact hx
      · rw [if_pos (he.mp rfl)]; exact hx
    · exact ⟨_, .notAKey ⟨w, t, rest, ws, e, hw, hp⟩ hv⟩
  · intro first seen t k x r hk hb _ es _ _
    exact ⟨_, .colon hk hb⟩
  · intro first seen t k x hk hx _ es _ _
    rcases hx with hx | hx | hx
    · exact ⟨_, .noColon hk (Or.inl hx)⟩
    · exact ⟨_, .noColon hk (Or.inr hx)⟩
    · obtain ⟨v', h'⟩ := stray_of_plain hx
      exact ⟨_, .stray hk h'⟩
  · intro first seen t k x hk hs hm _ es _ hseen
    exact ⟨_, .again hk (fun h => h hs ((hseen k).mp hm))⟩
  · intro first seen t k x r hk hs _ ih hr es _ hseen
    obtain ⟨F, h⟩ := ih hr
    exact ⟨_, .value hk (fun h hm => hs h ((hseen k).mpr hm)) h⟩
  · intro first seen t k x _ _ _ hr
    exact absurd rfl hr
  · intro first seen t k u w x r hk hs hv hw hb _ es _ hseen
    obtain ⟨v, ls, h⟩ := whole_of_padded hv
    exact ⟨_, .separator hk (fun h hm => hs h ((hseen k).mpr hm)) h hw hb⟩
  · intro first seen t k u x hk hs hv hx _ es _ hseen
    obtain ⟨v, ls, h⟩ := whole_of_padded hv
    exact ⟨_, .noEnd hk (fun h hm => hs h ((hseen k).mpr hm)) h hx⟩
  · intro first seen t k u w c x r hk hs hv hw hc _ ih hr es _ hseen
    obtain ⟨v, ls, h⟩ := whole_of_padded hv
    obtain ⟨F, hF⟩ := ih hr (es ++ [(k, v)]) (by simp) (by intro z; rw [List.mem_cons, hseen]; simp [or_comm])
    exact ⟨_, .more hk (fun h hm => hs h ((hseen k).mpr hm)) h hw hc hF⟩

/-! ### Numbers of objects -/

mutual
theorem stores_size {m : Mem} {p : Option Addr} : (v : Json) → ∀ {a as}, Stores m p v a as → as.length = size v
  | .arr xs, a, as, ⟨l, bs, _, h, e⟩ => by rw [e, List.length_cons, items_size xs h, size]; omega
  | .obj es, a, as, ⟨_, l, bs, _, h, e⟩ => by rw [e, List.length_cons, entries_size es h, size]; omega
  | .str _, a, as, h => by rw [h.2]; rfl
  | .bool _, a, as, h => by rw [h.2]; rfl
  | .null, a, as, h => by rw [h.2]; rfl
  | .int _, a, as, h => by rw [h.2]; rfl
  | .long _, a, as, h => by rw [h.2]; rfl
  | .dbl _, a, as, h => by rw [h.2]; rfl
theorem items_size {m : Mem} {p : Addr} : (xs : List Json) → ∀ {l bs}, StoresItems m p xs l bs → bs.length = size.sizes xs
  | [], _, _, h => by rw [h.2]; rfl
  | x :: xs, _, _, ⟨a, l', b1, b2, _, e, h1, h2⟩ => by rw [e, List.length_append, stores_size x h1, items_size xs h2]; rfl
theorem entries_size {m : Mem} {p : Addr} : (es : List (Bytes × Json)) → ∀ {l bs}, StoresEntries m p es l bs → bs.length = size.sizesE es
  | [], _, _, h => by rw [h.2]; rfl
  | (k, v) :: es, _, _, ⟨e, a, l', b1, b2, _, hb, _, h1, h2⟩ => by
    rw [hb, List.length_append, List.length_cons, stores_size v h1, entries_size es h2, size.sizesE]; omega
end

theorem lies_size {m : Mem} : (F : List Json) → ∀ {as}, Lies m F as → as.length = size.sizes F
  | [], _, h => by rw [h]; rfl
  | v :: F, _, ⟨_, _, as1, as2, e, h1, h2⟩ => by rw [e, List.length_append, stores_size v h1, lies_size F h2]; rfl

end Verif.Lemmas.Heap
