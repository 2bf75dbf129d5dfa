import Verif.Lemmas.HeapReader
import Verif.Lemmas.AcceptedAll
import Verif.Spec.Lost
/-!
# Lemmas: what is left in memory, by the derivation of the text
-/
namespace Verif.Lemmas.Heap
open Verif.Model Verif.Model.Heap Verif.Spec Verif.Spec.Heap Verif.Spec.Accepted Verif.Lemmas

theorem lost_of_value {m : Mode} {t rest : Bytes} {v : Json} {ws : List ExnKind} (h : Value m t rest v ws) : ∃ ls, Lost.Value m t rest v ls := by
  refine Value.rec (m := m) (motive_1 := fun t rest v _ _ => ∃ ls, Lost.Value m t rest v ls) (motive_2 := fun t rest vs _ _ => ∃ ls, Lost.Items m t rest vs ls)
    (motive_3 := fun seen t rest ents _ _ => ∃ ls, Lost.Members m seen t rest ents ls) ?_ ?_ ?_ ?_ ?_ ?_ ?_ ?_ ?_ ?_ h
  · intro t rest v ws hp; exact ⟨_, .prim hp⟩
  · intro w rest hw; exact ⟨_, .arr0 hw⟩
  · rintro t rest vs ws _ ⟨ls, h⟩; exact ⟨_, .arr h⟩
  · intro w rest hw; exact ⟨_, .obj0 hw⟩
  · rintro t rest vs ws _ ⟨ls, h⟩; exact ⟨_, .obj h⟩
  · rintro w1 t w2 rest v ws h1 _ h2 ⟨ls, h⟩; exact ⟨_, .last h1 h h2⟩
  · rintro w1 t w2 u rest v ws vs ws' h1 _ h2 _ ⟨ls, h⟩ ⟨ls', h'⟩; exact ⟨_, .more h1 h h2 h'⟩
  · rintro seen w1 key k wk w2 w3 t w4 rest v ws h1 hk h2 hs h3 _ h4 ⟨ls, h⟩; exact ⟨_, .last h1 hk h2 hs h3 h h4⟩
  · rintro seen w1 key k wk w2 w3 t w4 e0 rest v ws v' we h1 hk h2 hs h3 _ h4 hp ⟨ls, h⟩; exact ⟨_, .stray h1 hk h2 hs h3 h h4 hp⟩
  · rintro seen w1 key k wk w2 w3 t w4 c u rest v ws ents ws' h1 hk h2 hs h3 _ h4 hc _ ⟨ls, h⟩ ⟨ls', h'⟩; exact ⟨_, .more h1 hk h2 hs h3 h h4 hc h'⟩

/-- Besides `as`, from `base` on, there are primitives with the values `L`, in this order, and nothing else. -/
def Stays (base : Addr) (m : Mem) (as : List Addr) (L : List Json) : Prop :=
  ∃ ls : List Addr, ls.Pairwise (· < ·) ∧ (∀ x ∈ ls, base ≤ x ∧ x ∉ as) ∧ ls.map (fun x => (m.get x).map Obj.body) = L.map (fun v => some (.prim v)) ∧
    ∀ x, base ≤ x → m.get x ≠ none → x ∈ as ∨ x ∈ ls

theorem stays_live {m : Mem} {ls : List Addr} {L : List Json} (h : ls.map (fun x => (m.get x).map Obj.body) = L.map (fun v => some (.prim v))) : ∀ x ∈ ls, m.get x ≠ none := by
  intro x hx e
  have : (m.get x).map Obj.body ∈ L.map (fun v => some (Body.prim v)) := by rw [← h]; exact List.mem_map.mpr ⟨x, hx, rfl⟩
  rw [e] at this
  simp at this

theorem stays_nil {m : Mem} (hf : Fresh m) : Stays m.next m [] [] :=
  ⟨[], by simp, by simp, rfl, fun x hx h => absurd (hf x hx) h⟩

/-- The elements changed, nothing else. -/
theorem Stays.change {base : Addr} {m m' : Mem} {as as' : List Addr} {L : List Json} (hf : Fresh m) (h : Stays base m as L) (h1 : ∀ x ∈ as', x ∈ as ∨ m.next ≤ x)
    (h2 : ∀ x, x ∉ as → x < m.next → m'.get x = m.get x) (h3 : ∀ x, m'.get x ≠ none → x ∈ as' ∨ (x ∉ as ∧ x < m.next)) : Stays base m' as' L := by
  obtain ⟨ls, k1, k2, k3, k4⟩ := h
  have hlt : ∀ x ∈ ls, x < m.next := fun x hx => hf.lt (stays_live k3 x hx)
  refine ⟨ls, k1, fun x hx => ⟨(k2 x hx).1, fun hx' => ?_⟩, ?_, fun x hx hl => ?_⟩
  · rcases h1 x hx' with h | h
    · exact (k2 x hx).2 h
    · have := hlt x hx; omega
  · rw [← k3]
    refine List.map_congr_left (fun x hx => ?_)
    rw [h2 x (k2 x hx).2 (hlt x hx)]
  · rcases h3 x hl with h | ⟨h, h'⟩
    · exact Or.inl h
    · rw [h2 x h h'] at hl
      rcases k4 x hx hl with h'' | h''
      · exact absurd h'' h
      · exact Or.inr h''

/-- A value was read after the elements `as`; both are kept. -/
theorem Stays.both {base : Addr} {m m' : Mem} {as av : List Addr} {L L' : List Json} (hf : Fresh m) (hb : base ≤ m.next) (h : Stays base m as L) (has : ∀ x ∈ as, x < m.next)
    (hk : ∀ x, x < m.next → m'.get x = m.get x) (hav : ∀ x ∈ av, m.next ≤ x) (h' : Stays m.next m' av L') : Stays base m' (as ++ av) (L ++ L') := by
  obtain ⟨ls, k1, k2, k3, k4⟩ := h
  obtain ⟨ls', l1, l2, l3, l4⟩ := h'
  have hlt : ∀ x ∈ ls, x < m.next := fun x hx => hf.lt (stays_live k3 x hx)
  refine ⟨ls ++ ls', ?_, ?_, ?_, ?_⟩
  · exact List.pairwise_append.mpr ⟨k1, l1, fun x hx y hy => by have := hlt x hx; have := (l2 y hy).1; omega⟩
  · intro x hx
    rw [List.mem_append] at hx ⊢
    rcases hx with hx | hx
    · refine ⟨(k2 x hx).1, ?_⟩
      rintro (h | h)
      · exact (k2 x hx).2 h
      · have := hlt x hx; have := hav x h; omega
    · refine ⟨by have := (l2 x hx).1; omega, ?_⟩
      rintro (h | h)
      · have := has x h; have := (l2 x hx).1; omega
      · exact (l2 x hx).2 h
  · rw [List.map_append, List.map_append, l3, ← k3]
    congr 1
    exact List.map_congr_left (fun x hx => by rw [hk x (hlt x hx)])
  · intro x hx hl
    rw [List.mem_append, List.mem_append]
    by_cases hxm : x < m.next
    · rw [hk x hxm] at hl
      rcases k4 x hx hl with h | h
      · exact Or.inl (Or.inl h)
      · exact Or.inr (Or.inl h)
    · rcases l4 x (by omega) hl with h | h
      · exact Or.inl (Or.inr h)
      · exact Or.inr (Or.inr h)

/-- One more value is lost. -/
theorem Stays.lose {base : Addr} {m : Mem} {as : List Addr} {L : List Json} {p : Option Addr} {v : Json} (hf : Fresh m) (hb : base ≤ m.next) (h : Stays base m as L)
    (has : ∀ x ∈ as, x < m.next) : Stays base (m.new ⟨p, .prim v⟩).2 as (L ++ [v]) := by
  have hfr := frame_new hf ⟨p, .prim v⟩
  have := Stays.both (m' := (m.new ⟨p, .prim v⟩).2) (av := []) (L' := [v]) hf hb h has (fun x hx => hfr.keep x hx) (by simp)
    ⟨[m.next], by simp, by simp, by simp [Mem.new], fun x hx hl => ?_⟩
  · rwa [List.append_nil] at this
  · by_cases e : x = m.next
    · simp [e]
    · simp only [Mem.new, e, if_false] at hl
      exact absurd (hf x hx) hl

/-- What is left by reading a value. -/
def Leaves (base : Addr) (m : Mem) (p : Option Addr) (v : Json) (a : Addr) (m' : Mem) (L : List Json) : Prop :=
  Frame base m m' ∧ ∃ as, Made base m' p v a as ∧ Stays base m' as L

/-- A value among the items of an array, or of a member: `p` is the parent given to a primitive, `p'` to a container. -/
def hitem (env : Env) (f : Nat) (p p' : Option Addr) (s : St) (m : Mem) : HOut Addr :=
  (token env p s m).bind fun tok s m =>
    match tok with
    | .val a => .ret a s m
    | .punct c =>
      if c = 91 then readArray env f p' s m
      else if c = 123 then objectLoop env f p' none s m
      else .throw ⟨.notJson, s.hist⟩ m
    | .nothing => .throw ⟨.notJson, s.hist⟩ m

/-- The text was read up to here. -/
def Upto (rest : Bytes) (s : St) : Prop := s.rest = rest ∧ (s.good = true ∨ rest = [])

def LeaveV (m : Mode) (t rest : Bytes) (v : Json) (L : List Json) : Prop :=
  ∀ w hist warns f p p' mem, Blank w → Fresh mem →
    hitem (envM m) f p p' ⟨w ++ t ++ rest, true, hist, warns⟩ mem = .fuel ∨
    ∃ a s' mem' p0, hitem (envM m) f p p' ⟨w ++ t ++ rest, true, hist, warns⟩ mem = .ret a s' mem' ∧ Upto rest s' ∧ (p0 = p ∨ p0 = p') ∧ Leaves mem.next mem p0 v a mem' L

def LeaveI (m : Mode) (t rest : Bytes) (vs : List Json) (L : List Json) : Prop :=
  ∀ hist warns f base p q ra acc as L0 mem, Fresh mem → base ≤ mem.next → ArrPre mem p acc ra as → as.Nodup → (∀ x ∈ as, base ≤ x) → Stays base mem as L0 →
    (token (envM m) q ⟨t ++ rest, true, hist, warns⟩ mem).bind (fun tok s mm => arrayLoop (envM m) f p ra tok s mm) = .fuel ∨
    ∃ a s' mem', (token (envM m) q ⟨t ++ rest, true, hist, warns⟩ mem).bind (fun tok s mm => arrayLoop (envM m) f p ra tok s mm) = .ret a s' mem' ∧ Upto rest s' ∧
      Leaves base mem p (.arr (acc ++ vs)) a mem' (L0 ++ L)

def LeaveM (m : Mode) (seen : List Bytes) (t rest : Bytes) (ents : List (Bytes × Json)) (L : List Json) : Prop :=
  ∀ hist warns f base p r ra as L0 mem, Fresh mem → base ≤ mem.next → ObjPre (envM m) base mem p r ra as → Stays base mem as L0 →
    (keys (r.getD [])).Nodup → (∀ x, x ∈ seen ↔ x ∈ keys (r.getD [])) →
    objectLoop (envM m) f p ra ⟨t ++ rest, true, hist, warns⟩ mem = .fuel ∨
    ∃ a s' mem', objectLoop (envM m) f p ra ⟨t ++ rest, true, hist, warns⟩ mem = .ret a s' mem' ∧ Upto rest s' ∧
      Leaves base mem p (.obj (addAll (envM m) (r.getD []) ents)) a mem' (L0 ++ L)

theorem leaves_of_frame {base : Addr} {m0 m m' : Mem} {parent : Option Addr} {v : Json} {a : Addr} {L : List Json} (hf : Frame base m0 m) (h : Leaves base m parent v a m' L) :
    Leaves base m0 parent v a m' L := ⟨hf.trans (Nat.le_refl _) h.1, h.2⟩

theorem token_val {env : Env} {p : Option Addr} {s s' : St} {m : Mem} {v : Json} (h : consumeToken env s = .ret (.val v) s') :
    token env p s m = .ret (.val m.next) s' (m.new ⟨p, .prim v⟩).2 := by
  unfold token
  rw [h]
  rfl

theorem token_punct {env : Env} {p : Option Addr} {s s' : St} {m : Mem} {c : Byte} (h : consumeToken env s = .ret (.punct c) s') :
    token env p s m = .ret (.punct c) s' m := by
  unfold token
  rw [h]

theorem leaves_new {base : Addr} {m : Mem} {parent : Option Addr} {v : Json} {o : Obj} {L : List Json} (hf : Fresh m) (hb : base ≤ m.next) (hs : Stays base m [] L)
    (hst : Stores (m.new o).2 parent v m.next [m.next]) : Leaves base m parent v m.next (m.new o).2 L := by
  have hfr := frame_new hf o
  refine ⟨⟨hfr.fresh, hfr.grow, fun x hx => hfr.keep x (by omega)⟩, [m.next], ⟨hst, by simp, by simpa using hb⟩, ?_⟩
  refine hs.change hf (by simp) (fun x _ hx => hfr.keep x hx) (fun x hx => ?_)
  have : x < m.next + 1 := hfr.fresh.lt hx
  by_cases e : x = m.next
  · left; simp [e]
  · right; exact ⟨by simp, by omega⟩

/-- The value of a member. -/
theorem readNext_hitem {env : Env} {f : Nat} {p : Option Addr} {s : St} {m : Mem} :
    (hitem env f p p s m = .fuel → Heap.readNext env (f + 1) p s m = .fuel) ∧
    (∀ a s' m', hitem env f p p s m = .ret a s' m' → Heap.readNext env (f + 1) p s m = .ret (some a) s' m') := by
  unfold hitem
  rw [Heap.readNext]
  cases token env p s m with
  | ret t s1 m1 =>
    simp only [HOut.bind]
    cases t with
    | val a =>
      refine ⟨(fun h => by cases h), fun a s' m' h => ?_⟩
      cases h; rfl
    | nothing => exact ⟨(fun h => by cases h), (fun a s' m' h => by cases h)⟩
    | punct c =>
      dsimp only
      by_cases h1 : c = 91
      · rw [if_pos h1, if_neg (by omega), if_pos h1]
        exact ⟨fun h => by rw [h], fun a s' m' h => by rw [h]⟩
      · rw [if_neg h1]
        by_cases h2 : c = 123
        · rw [if_pos h2, if_pos h2]
          exact ⟨fun h => by rw [h], fun a s' m' h => by rw [h]⟩
        · rw [if_neg h2, if_neg h2]
          exact ⟨(fun h => by cases h), (fun a s' m' h => by cases h)⟩
  | fuel => exact ⟨fun _ => rfl, (fun a s' m' h => by cases h)⟩
  | _ => exact ⟨(fun h => by cases h), (fun a s' m' h => by cases h)⟩

/-- After an item of an array. -/
def hsep (env : Env) (f : Nat) (p : Option Addr) (r : Addr) (tok : HTok) (s : St) (m : Mem) : HOut Addr :=
  match tok with
  | .punct c =>
    if c = 93 then .ret r s m
    else if c = 44 then (token env (some r) s m).bind fun tok s m => arrayLoop env f p (some r) tok s m
    else .throw ⟨.unexpected 93, s.hist⟩ m
  | _ => .throw ⟨.unexpected 93, s.hist⟩ m

theorem arrayLoop_hitem (env : Env) (f : Nat) (p q ra : Option Addr) (s : St) (m : Mem) :
    (token env q s m).bind (fun tok s mm => arrayLoop env (f + 1) p ra tok s mm) =
      (hitem env f q none s m).bind fun child s m =>
        match pushBack (arrResult p ra m).2 (arrResult p ra m).1 child with
        | none => .bad
        | some m' => (token env (some (arrResult p ra m).1) s m').bind (hsep env f p (arrResult p ra m).1) := by
  unfold hitem
  cases token env q s m with
  | ret t s1 m1 =>
    simp only [HOut.bind]
    rw [Heap.arrayLoop.eq_def]
    dsimp only
    cases t with
    | val a => rfl
    | nothing => rfl
    | punct c => rfl
  | _ => rfl

theorem reach_item {m : Mode} {t rest : Bytes} {v : Json} {L : List Json} (hv : LeaveV m t rest v L) {w : Bytes} (hw : Blank w) (hist : LHist) (warns : List Exn) (f : Nat)
    {base : Addr} {p : Option Addr} (q : Option Addr) {ra : Option Addr} {acc : List Json} {as : List Addr} {L0 : List Json} {mem : Mem}
    (hf : Fresh mem) (hb : base ≤ mem.next) (hpre : ArrPre mem p acc ra as) (hn : as.Nodup) (hnew : ∀ x ∈ as, base ≤ x) (hs : Stays base mem as L0) :
    (token (envM m) q ⟨w ++ t ++ rest, true, hist, warns⟩ mem).bind (fun tok s mm => arrayLoop (envM m) (f + 1) p ra tok s mm) = .fuel ∨
    ∃ r s' mem3 as3, (token (envM m) q ⟨w ++ t ++ rest, true, hist, warns⟩ mem).bind (fun tok s mm => arrayLoop (envM m) (f + 1) p ra tok s mm) =
        (token (envM m) (some r) s' mem3).bind (hsep (envM m) f p r) ∧ Upto rest s' ∧ Frame base mem mem3 ∧ ArrAt mem3 p (acc ++ [v]) r as3 ∧ as3.Nodup ∧
      (∀ x ∈ as3, base ≤ x) ∧ Stays base mem3 as3 (L0 ++ L) := by
  rw [arrayLoop_hitem]
  rcases hv w hist warns f q none mem hw hf with h | ⟨a, s', m1, p0, h, hup, -, hfr, av, hmade, hst⟩
  · left; rw [h]; rfl
  right
  rw [h]
  simp only [HOut.bind]
  have hlt : ∀ x ∈ as, x < mem.next := by
    intro x hx
    cases ra with
    | none => rw [hpre.2] at hx; exact absurd hx (by simp)
    | some r => exact hf.lt (stores_live _ (ArrAt.stores hpre) x hx)
  have hnav : (as ++ av).Nodup := by
    refine List.nodup_append.mpr ⟨hn, hmade.nodup, fun x hx y hy e => ?_⟩
    have h1 := hlt x hx
    have h2 := hmade.new y hy
    omega
  have hnewav : ∀ x ∈ as ++ av, base ≤ x := by
    intro x hx
    rcases List.mem_append.mp hx with h | h
    · exact hnew x h
    · have := hmade.new x h; omega
  have hboth := Stays.both hf hb hs hlt (fun x hx => hfr.keep x hx) hmade.new hst
  have hfr1 : Frame base mem m1 := ⟨hfr.fresh, hfr.grow, fun x hx => hfr.keep x (by omega)⟩
  have hres : ∃ r m2 as2, arrResult p ra m1 = (r, m2) ∧ Frame base mem m2 ∧ ArrAt m2 p acc r as2 ∧ Stores m2 p0 v a av ∧
      (as2 ++ av).Nodup ∧ (∀ x ∈ as2 ++ av, base ≤ x) ∧ Stays base m2 (as2 ++ av) (L0 ++ L) := by
    cases ra with
    | some r => exact ⟨r, m1, as, rfl, hfr1, ArrAt.congr hpre (fun x hx => hfr.keep x (hlt x hx)), hmade.stores, hnav, hnewav, hboth⟩
    | none =>
      obtain ⟨rfl, rfl⟩ := hpre
      have hfr2 := frame_new hfr1.fresh ⟨p, .arr []⟩
      have hltv : ∀ x ∈ av, x < m1.next := fun x hx => hfr1.fresh.lt (stores_live _ hmade.stores x hx)
      have hg1 := hfr1.grow
      refine ⟨m1.next, _, [m1.next], rfl, hfr1.trans (by omega) hfr2, ⟨[], [], by simp [Mem.new], ⟨rfl, rfl⟩, rfl⟩, stores_congr v hmade.stores (fun x hx => hfr2.keep x (hltv x hx)), ?_, ?_, ?_⟩
      · simp only [List.cons_append, List.nil_append, List.nodup_cons]
        exact ⟨fun h => by have := hltv _ h; omega, by simpa using hnav⟩
      · intro x hx
        simp only [List.cons_append, List.nil_append, List.mem_cons] at hx
        rcases hx with h | h
        · omega
        · exact hnewav x (by simpa using h)
      · refine hboth.change hfr1.fresh (fun x hx => ?_) (fun x _ hx => hfr2.keep x hx) (fun x hx => ?_)
        · simp only [List.cons_append, List.nil_append, List.mem_cons] at hx
          rcases hx with h | h
          · right; omega
          · left; simpa using h
        · have hx' : x < m1.next + 1 := hfr2.fresh.lt hx
          by_cases e : x = m1.next
          · left; simp [e]
          · by_cases e' : x ∈ av
            · left; simp [e']
            · right; exact ⟨by simpa using e', by omega⟩
  obtain ⟨r, m2, as2, e2, hfr2, hat2, hst2, hn2, hnew2, hs2⟩ := hres
  obtain ⟨m3, e3, hat3, hnx3, hk3⟩ := pushBack_spec hat2 hst2 hn2
  have hlive : ∀ x ∈ as2 ++ av, x < m2.next := by
    intro x hx
    rcases List.mem_append.mp hx with h | h
    · exact hfr2.fresh.lt (stores_live _ hat2.stores x h)
    · exact hfr2.fresh.lt (stores_live _ hst2 x h)
  have hk3' : ∀ x, x ∉ as2 ++ av → m3.get x = m2.get x := fun x hx => hk3 x (fun h => hx (List.mem_append_left _ h)) (fun h => hx (List.mem_append_right _ h))
  have hfr3 : Frame base mem m3 := by
    refine ⟨fun x hx => ?_, by rw [hnx3]; exact hfr2.grow, fun x hx => ?_⟩
    · rw [hnx3] at hx
      rw [hk3' x (fun h => by have := hlive x h; omega)]
      exact hfr2.fresh x hx
    · rw [hk3' x (fun h => by have := hnew2 x h; omega)]
      exact hfr2.keep x hx
  refine ⟨r, s', m3, as2 ++ av, by simp only [e2, e3], hup, hfr3, hat3, hn2, hnew2, ?_⟩
  refine hs2.change hfr2.fresh (fun x hx => Or.inl hx) (fun x hx _ => hk3' x hx) (fun x hx => ?_)
  by_cases e : x ∈ as2 ++ av
  · exact Or.inl e
  · right
    refine ⟨e, ?_⟩
    rw [hk3' x e] at hx
    exact hfr2.fresh.lt hx

theorem leave_item {m : Mode} {t rest : Bytes} {v : Json} {L : List Json} (hv : LeaveV m t rest v L) {w : Bytes} (hw : Blank w) (hr : rest ≠ []) (hist : LHist) (warns : List Exn) (f : Nat)
    {base : Addr} {p : Option Addr} (q : Option Addr) {ra : Option Addr} {acc : List Json} {as : List Addr} {L0 : List Json} {mem : Mem}
    (hf : Fresh mem) (hb : base ≤ mem.next) (hpre : ArrPre mem p acc ra as) (hn : as.Nodup) (hnew : ∀ x ∈ as, base ≤ x) (hs : Stays base mem as L0) :
    (token (envM m) q ⟨w ++ t ++ rest, true, hist, warns⟩ mem).bind (fun tok s mm => arrayLoop (envM m) (f + 1) p ra tok s mm) = .fuel ∨
    ∃ r s' mem3 as3, (token (envM m) q ⟨w ++ t ++ rest, true, hist, warns⟩ mem).bind (fun tok s mm => arrayLoop (envM m) (f + 1) p ra tok s mm) =
        (token (envM m) (some r) s' mem3).bind (hsep (envM m) f p r) ∧ s'.rest = rest ∧ s'.good = true ∧ Frame base mem mem3 ∧ ArrAt mem3 p (acc ++ [v]) r as3 ∧ as3.Nodup ∧
      (∀ x ∈ as3, base ≤ x) ∧ Stays base mem3 as3 (L0 ++ L) := by
  rcases reach_item hv hw hist warns f q hf hb hpre hn hnew hs with h | ⟨r, s', mem3, as3, h, ⟨g1, g2⟩, g3, g4, g5, g6, g7⟩
  · exact Or.inl h
  · exact Or.inr ⟨r, s', mem3, as3, h, g1, g2.resolve_right hr, g3, g4, g5, g6, g7⟩

/-- `member_agrees`, with what is left. -/
theorem member_leaves {env : Env} {base : Addr} {parent : Option Addr} {es : List (Bytes × Json)} {key : Bytes} {m0 m m2 : Mem} {r k a : Addr} {as : List Addr} {v : Json} {L0 L : List Json}
    (hfm : Fresh m) (hb : base ≤ k) (hkm : ∃ p, m.get k = some ⟨p, .prim (.str key)⟩) (hfr : Frame base m0 m)
    (ho : ObjAt m parent env.sort es r as) (hn : as.Nodup) (hnew : ∀ x ∈ as, base ≤ x) (hk : k ∉ as) (ht : Stays base m (k :: as) L0)
    (hv : Leaves m.next m (some r) v a m2 L) :
    ∃ m3 as3, Heap.push m2 r key a = some m3 ∧ delete m3.next k m3 = .done (m3.drop k) ∧ Frame base m0 (m3.drop k) ∧
      ObjAt (m3.drop k) parent env.sort (addEntry env es key v) r as3 ∧ as3.Nodup ∧ (∀ x ∈ as3, base ≤ x) ∧ Stays base (m3.drop k) as3 (L0 ++ L) := by
  obtain ⟨hf2, av, hmade, htv⟩ := hv
  obtain ⟨p, hkp⟩ := hkm
  have hlt : ∀ x ∈ as, x < m.next := fun x hx => hfm.lt (stores_live _ ho.stores x hx)
  have hklt : k < m.next := hfm.lt (by rw [hkp]; simp)
  have hltr : base ≤ m.next := Nat.le_of_lt (Nat.lt_of_le_of_lt hb hklt)
  have ho2 : ObjAt m2 parent env.sort es r as := ho.congr (fun x hx => hf2.keep x (hlt x hx))
  have hn2 : (as ++ av).Nodup := by
    refine List.nodup_append.mpr ⟨hn, hmade.nodup, fun x hx y hy e => ?_⟩
    have h1 := hlt x hx
    have h2 := hmade.new y hy
    omega
  have hltv : ∀ x ∈ av, x < m2.next := fun x hx => hf2.fresh.lt (stores_live _ hmade.stores x hx)
  have hgrow := hf2.grow
  obtain ⟨m3, as3, e3, h3, hp3, hnx3, hk3⟩ := push_spec key hf2.fresh ho2 hmade.stores hn2
  have hkav : k ∉ av := fun h => by have := hmade.new k h; omega
  have hk3' : m3.get k = some ⟨p, .prim (.str key)⟩ := by
    rw [hk3 k hk hkav (by omega), hf2.keep k hklt]; exact hkp
  have hf3 : Fresh m3 := by
    intro x hx
    rw [hnx3] at hx
    rw [hk3 x (fun h => by have := hlt x h; omega) (fun h => by have := hltv x h; omega) (by omega)]
    exact hf2.fresh x (by omega)
  have hn3 : as3.Nodup := hp3.nodup_iff.mpr (List.nodup_cons.mpr ⟨fun h => by
    rcases List.mem_append.mp h with h | h
    · have := hlt _ h; omega
    · have := hltv _ h; omega, hn2⟩)
  have hk3n : k ∉ as3 := fun h => by
    rcases List.mem_cons.mp (hp3.mem_iff.mp h) with h | h
    · omega
    · rcases List.mem_append.mp h with h | h
      · exact hk h
      · exact hkav h
  refine ⟨m3, as3, e3, delete_key hf3 hk3', ⟨fresh_drop hf3 k, ?_, ?_⟩, ?_, hn3, ?_, ?_⟩
  · have h1 := hfr.grow
    show m0.next ≤ m3.next
    omega
  · intro x hx
    have h1 : x ≠ k := by omega
    rw [drop_get, if_neg h1, hk3 x (fun h => by have := hnew x h; omega) (fun h => by have := hmade.new x h; omega) (by omega), hf2.keep x (by omega), hfr.keep x hx]
  · refine ObjAt.congr h3 (fun x hx => ?_)
    rw [drop_get, if_neg (fun e : x = k => hk3n (e ▸ hx))]
  · intro x hx
    rcases List.mem_cons.mp (hp3.mem_iff.mp hx) with h | h
    · omega
    · rcases List.mem_append.mp h with h | h
      · exact hnew x h
      · have := hmade.new x h; omega
  · have hboth := Stays.both hfm hltr ht (by
      intro x hx
      rcases List.mem_cons.mp hx with h | h
      · omega
      · exact hlt x h) (fun x hx => hf2.keep x hx) hmade.new htv
    refine hboth.change hf2.fresh (fun x hx => ?_) (fun x hx hx' => ?_) (fun x hl => ?_)
    · rcases List.mem_cons.mp (hp3.mem_iff.mp hx) with h | h
      · right; omega
      · left; simp only [List.cons_append, List.mem_cons]; exact Or.inr h
    · simp only [List.cons_append, List.mem_cons, List.mem_append, not_or] at hx
      rw [drop_get, if_neg hx.1, hk3 x hx.2.1 hx.2.2 (by omega)]
    · rw [drop_get] at hl
      by_cases hxk : x = k
      · simp [hxk] at hl
      rw [if_neg hxk] at hl
      by_cases h : x ∈ as3
      · exact Or.inl h
      · right
        have h' : x ∉ m2.next :: (as ++ av) := fun h' => h (hp3.mem_iff.mpr h')
        simp only [List.mem_cons, List.mem_append, not_or] at h'
        refine ⟨by simp only [List.cons_append, List.mem_cons, List.mem_append, not_or]; exact ⟨hxk, h'.2⟩, ?_⟩
        rw [hk3 x h'.2.1 h'.2.2 h'.1] at hl
        exact hf2.fresh.lt hl

/-- After the value of a member. -/
def hosep (env : Env) (f : Nat) (p : Option Addr) (r : Addr) (tok : HTok) (s : St) (m : Mem) : HOut Addr :=
  match tok with
  | .val _ => .ret r s m
  | .punct c => if c = 125 then .ret r s m else objectLoop env f p (some r) s m
  | .nothing => objectLoop env f p (some r) s m

/-- After the colon of a member. -/
def hchild (env : Env) (f : Nat) (p : Option Addr) (r k : Addr) (key : Bytes) (child : Option Addr) (s : St) (m : Mem) : HOut Addr :=
  match child with
  | none => .ub .nullChild
  | some v =>
    match push m r key v with
    | none => .bad
    | some m =>
      match delete m.next k m with
      | .bad => .bad
      | .fuel => .fuel
      | .done m => (token env (some r) s m).bind (hosep env f p r)

theorem hchild_fold (env : Env) (f : Nat) (p : Option Addr) (r k : Addr) (key : Bytes) (o : HOut (Option Addr)) :
    (o.bind fun child s m =>
      match child with
      | none => .ub .nullChild
      | some v =>
        match push m r key v with
        | none => .bad
        | some m =>
          match delete m.next k m with
          | .bad => .bad
          | .fuel => .fuel
          | .done m =>
            (token env (some r) s m).bind fun tok s m =>
              match tok with
              | .val _ => .ret r s m
              | .punct c => if c = 125 then .ret r s m else objectLoop env f p (some r) s m
              | .nothing => objectLoop env f p (some r) s m) = o.bind (hchild env f p r k key) := by
  congr 1

/-- Up to the value of a member. -/
theorem reach_colon {m : Mode} {seen : List Bytes} {w1 key k w2 x : Bytes} {wk : List ExnKind} (h1 : Blank w1) (hk : Chars m key k wk) (h2 : Blank w2)
    (hs : m.strict = true → k ∉ seen) (hist : LHist) (warns : List Exn)
    {base : Addr} {p : Option Addr} {r : Option (List (Bytes × Json))} {ra : Option Addr} {as : List Addr} {L0 : List Json} {mem : Mem}
    (hf : Fresh mem) (hb : base ≤ mem.next) (hpre : ObjPre (envM m) base mem p r ra as) (ht : Stays base mem as L0) (hseen : ∀ x, x ∈ seen ↔ x ∈ keys (r.getD [])) :
    ∃ r' s2 m' as', (∀ f, objectLoop (envM m) (f + 1) p ra ⟨w1 ++ (34 :: (key ++ 34 :: (w2 ++ (58 :: x)))), true, hist, warns⟩ mem =
        (Heap.readNext (envM m) f (some r') s2 m').bind (hchild (envM m) f p r' mem.next k)) ∧ s2.rest = x ∧ s2.good = true ∧ Frame base mem m' ∧ mem.next + 1 ≤ m'.next ∧
      ObjAt m' p (envM m).sort (dropKey (r.getD []) k) r' as' ∧ as'.Nodup ∧ (∀ x ∈ as', base ≤ x) ∧ mem.next ∉ as' ∧ m'.get mem.next = some ⟨ra, .prim (.str k)⟩ ∧
      Stays base m' (mem.next :: as') L0 := by
  obtain ⟨ha, es1, e1, e2⟩ := chars_complete hk (w2 ++ (58 :: x)) ((w1.foldl LHist.put hist).put 34) warns []
  have hmem : Json.contains (r.getD []) k = true ↔ k ∈ seen := by rw [hseen, contains_iff]
  have hstr : (Json.contains (r.getD []) k && (envM m).strictOr) = false := by
    rw [Bool.eq_false_iff]
    intro h
    rw [Bool.and_eq_true, hmem] at h
    exact hs h.2 h.1
  have tok1 : ∀ rest', tokenLoop (envM m) (34 :: rest') (w1.foldl LHist.put hist) warns = stringLoop (envM m) rest' ((w1.foldl LHist.put hist).put 34) warns [] := by
    intro rest'; simp only [tokenLoop, if_true]; rfl
  have hkget : (mem.new ⟨ra, .prim (.str k)⟩).2.get mem.next = some ⟨ra, .prim (.str k)⟩ := by simp [Mem.new]
  have hfr1 := frame_new hf ⟨ra, .prim (.str k)⟩
  have hlt : ∀ x ∈ as, x < mem.next := by
    intro x hx
    obtain ⟨_, _, h⟩ := hpre
    cases ra with
    | none =>
      cases r with
      | none => dsimp only at h; subst h; exact absurd hx (by simp)
      | some es => exact absurd h (by simp)
    | some a =>
      cases r with
      | none => exact absurd h (by simp)
      | some es => exact hf.lt (stores_live _ (ObjAt.stores h) x hx)
  have hpre1 : ObjPre (envM m) base (mem.new ⟨ra, .prim (.str k)⟩).2 p r ra as := by
    obtain ⟨h1, h2, h⟩ := hpre
    refine ⟨h1, h2, ?_⟩
    cases r <;> cases ra <;> first | exact h | skip
    exact ObjAt.congr h (fun x hx => hfr1.keep x (hlt x hx))
  obtain ⟨r', m', as', e, g1, g2, g3, g4, g5, g6, g7⟩ := (result_agrees false (envM m) base p r ra k ⟨x, true, (w2.foldl LHist.put ha).put 58, warns ++ es1⟩ _ as hfr1.fresh hpre1).2 hstr
  have hmn : (mem.new ⟨ra, .prim (.str k)⟩).2.next = mem.next + 1 := rfl
  rw [hmn] at g3 g5 g6 g7
  obtain ⟨hh, ws, es3⟩ : ∃ hh ws, (if Json.contains (r.getD []) k then warnDup ⟨x, true, (w2.foldl LHist.put ha).put 58, warns ++ es1⟩ k else ⟨x, true, (w2.foldl LHist.put ha).put 58, warns ++ es1⟩) =
        ⟨x, true, hh, ws⟩ := by
    by_cases hk : Json.contains (r.getD []) k = true
    · exact ⟨_, _, by rw [if_pos hk]; rfl⟩
    · exact ⟨_, _, by rw [if_neg hk]⟩
  rw [es3] at e
  have hkas : mem.next ∉ as := fun h => by have := hlt _ h; omega
  have hbas : ∀ x ∈ as', base ≤ x := fun x hx => by
    rcases g3 x hx with h | h
    · exact hpre.2.1 x h
    · omega
  have hkas' : mem.next ∉ as' := fun h => by
    rcases g3 _ h with h | h
    · exact hkas h
    · omega
  have hfr' : Frame base mem m' := by
    refine ⟨g4, by omega, fun x hx => ?_⟩
    rw [g6 x (fun h => by have := hpre.2.1 x h; omega) (by omega), hfr1.keep x (by omega)]
  have ht' : Stays base m' (mem.next :: as') L0 := by
    refine ht.change hf (fun x hx => ?_) (fun x hx hx' => ?_) (fun x hl => ?_)
    · rcases List.mem_cons.mp hx with h | h
      · right; omega
      · rcases g3 x h with h | h
        · exact Or.inl h
        · right; omega
    · rw [g6 x hx (by omega), hfr1.keep x hx']
    · rcases g7 x hl with h | ⟨h, h'⟩
      · left; simp [h]
      · by_cases e : x = mem.next
        · left; simp [e]
        · right
          refine ⟨h, ?_⟩
          rw [g6 x h h'] at hl
          have : x < mem.next + 1 := hfr1.fresh.lt hl
          omega
  refine ⟨r', ⟨x, true, hh, ws⟩, m', as', fun f => ?_, rfl, rfl, hfr', g5, g1, g2, hbas, hkas', by rw [g6 mem.next hkas (by omega)]; exact hkget, ht'⟩
  rw [Heap.objectLoop, token_val (by rw [consumeToken_good, skip_blank h1, tok1, e2])]
  simp only [HOut.bind, List.nil_append]
  rw [hkget]
  simp only
  rw [token_punct (by rw [consumeToken_good, skip_blank h2, punct_tok (by decide)])]
  simp only
  rw [if_neg (by simp), e]
  exact hchild_fold _ _ _ _ _ _ _

theorem reach_member {m : Mode} {seen : List Bytes} {w1 key k w2 w3 t rest : Bytes} {wk : List ExnKind} {v : Json} {L : List Json} (h1 : Blank w1) (hk : Chars m key k wk) (h2 : Blank w2)
    (hs : m.strict = true → k ∉ seen) (h3 : Blank w3) (hv : LeaveV m t rest v L) (hist : LHist) (warns : List Exn) (f : Nat)
    {base : Addr} {p : Option Addr} {r : Option (List (Bytes × Json))} {ra : Option Addr} {as : List Addr} {L0 : List Json} {mem : Mem}
    (hf : Fresh mem) (hb : base ≤ mem.next) (hpre : ObjPre (envM m) base mem p r ra as) (ht : Stays base mem as L0) (hseen : ∀ x, x ∈ seen ↔ x ∈ keys (r.getD [])) :
    objectLoop (envM m) (f + 1) p ra ⟨w1 ++ (34 :: (key ++ 34 :: (w2 ++ (58 :: (w3 ++ t ++ rest))))), true, hist, warns⟩ mem = .fuel ∨
    ∃ r' s' mem3 as3, objectLoop (envM m) (f + 1) p ra ⟨w1 ++ (34 :: (key ++ 34 :: (w2 ++ (58 :: (w3 ++ t ++ rest))))), true, hist, warns⟩ mem =
        (token (envM m) (some r') s' mem3).bind (hosep (envM m) f p r') ∧ Upto rest s' ∧ Frame base mem mem3 ∧
      ObjAt mem3 p (envM m).sort (addEntry (envM m) (dropKey (r.getD []) k) k v) r' as3 ∧ as3.Nodup ∧ (∀ x ∈ as3, base ≤ x) ∧ Stays base mem3 as3 (L0 ++ L) := by
  obtain ⟨r', s2, m', as', h, i1, i2, hfr', hgrow, g1, g2, hbas, hkas', hkget, ht'⟩ := reach_colon (x := w3 ++ t ++ rest) h1 hk h2 hs hist warns hf hb hpre ht hseen
  rw [h f]
  have es2 : s2 = ⟨w3 ++ t ++ rest, true, s2.hist, s2.warns⟩ := by cases s2; simp only at i1 i2; subst i1; subst i2; rfl
  rw [es2]
  cases f with
  | zero => left; rw [Heap.readNext]; rfl
  | succ f =>
    rcases hv w3 s2.hist s2.warns f (some r') (some r') m' h3 hfr'.fresh with h | ⟨a, s', mm2, p0, h, hup, hp0, hl⟩
    · left; rw [readNext_hitem.1 h]; rfl
    right
    have hp0 : p0 = some r' := by rcases hp0 with h | h <;> exact h
    subst hp0
    rw [readNext_hitem.2 _ _ _ h]
    obtain ⟨m3, as3, e3, e4, hf5, ho5, hn5, hb5, ht5⟩ := member_leaves (m0 := mem) hfr'.fresh hb ⟨ra, hkget⟩ hfr' g1 g2 hbas hkas' ht' hl
    refine ⟨r', s', m3.drop mem.next, as3, ?_, hup, hf5, ho5, hn5, hb5, ht5⟩
    simp only [HOut.bind, hchild]
    rw [e3]
    simp only
    rw [e4]

theorem leave_member {m : Mode} {seen : List Bytes} {w1 key k w2 w3 t rest : Bytes} {wk : List ExnKind} {v : Json} {L : List Json} (h1 : Blank w1) (hk : Chars m key k wk) (h2 : Blank w2)
    (hs : m.strict = true → k ∉ seen) (h3 : Blank w3) (hv : LeaveV m t rest v L) (hr : rest ≠ []) (hist : LHist) (warns : List Exn) (f : Nat)
    {base : Addr} {p : Option Addr} {r : Option (List (Bytes × Json))} {ra : Option Addr} {as : List Addr} {L0 : List Json} {mem : Mem}
    (hf : Fresh mem) (hb : base ≤ mem.next) (hpre : ObjPre (envM m) base mem p r ra as) (ht : Stays base mem as L0) (hseen : ∀ x, x ∈ seen ↔ x ∈ keys (r.getD [])) :
    objectLoop (envM m) (f + 1) p ra ⟨w1 ++ (34 :: (key ++ 34 :: (w2 ++ (58 :: (w3 ++ t ++ rest))))), true, hist, warns⟩ mem = .fuel ∨
    ∃ r' s' mem3 as3, objectLoop (envM m) (f + 1) p ra ⟨w1 ++ (34 :: (key ++ 34 :: (w2 ++ (58 :: (w3 ++ t ++ rest))))), true, hist, warns⟩ mem =
        (token (envM m) (some r') s' mem3).bind (hosep (envM m) f p r') ∧ s'.rest = rest ∧ s'.good = true ∧ Frame base mem mem3 ∧
      ObjAt mem3 p (envM m).sort (addEntry (envM m) (dropKey (r.getD []) k) k v) r' as3 ∧ as3.Nodup ∧ (∀ x ∈ as3, base ≤ x) ∧ Stays base mem3 as3 (L0 ++ L) := by
  rcases reach_member h1 hk h2 hs h3 hv hist warns f hf hb hpre ht hseen with h | ⟨r', s', mem3, as3, h, ⟨g1, g2⟩, g3, g4, g5, g6, g7⟩
  · exact Or.inl h
  · exact Or.inr ⟨r', s', mem3, as3, h, g1, g2.resolve_right hr, g3, g4, g5, g6, g7⟩

theorem leave_zero {m : Mode} {t rest : Bytes} {v : Json} {L : List Json} (hv : LeaveV m t rest v L) {w : Bytes} (hw : Blank w) (hist : LHist) (warns : List Exn)
    (p q ra : Option Addr) {mem : Mem} (hf : Fresh mem) :
    (token (envM m) q ⟨w ++ t ++ rest, true, hist, warns⟩ mem).bind (fun tok s mm => arrayLoop (envM m) 0 p ra tok s mm) = .fuel := by
  have := hv w hist warns 0 q none mem hw hf
  unfold hitem at this
  cases htok : token (envM m) q ⟨w ++ t ++ rest, true, hist, warns⟩ mem with
  | ret tok s m => simp only [HOut.bind]; rw [Heap.arrayLoop]
  | fuel => rfl
  | _ =>
    rw [htok] at this
    simp only [HOut.bind] at this
    rcases this with h | ⟨_, _, _, _, h, _⟩ <;> cases h

theorem leaves (m : Mode) {t rest : Bytes} {v : Json} {L : List Json} (h : Lost.Value m t rest v L) : LeaveV m t rest v L := by
  have skip : ∀ (c : Byte) (w u : Bytes) (hist : LHist) (warns : List Exn), Blank w → c ∈ b!",:[]{}" →
      consumeToken (envM m) ⟨w ++ (c :: u), true, hist, warns⟩ = .ret (.punct c) ⟨u, true, (w.foldl LHist.put hist).put c, warns⟩ := by
    intro c w u hist warns hw hc
    rw [consumeToken_good, skip_blank hw, punct_complete m hc]
  have good : ∀ (s : St), s.good = true → s = ⟨s.rest, true, s.hist, s.warns⟩ := by
    intro s hs; cases s; simp only at hs; subst hs; rfl
  refine Lost.Value.rec (m := m) (motive_1 := fun t rest v L _ => LeaveV m t rest v L) (motive_2 := fun t rest vs L _ => LeaveI m t rest vs L)
    (motive_3 := fun seen t rest ents L _ => LeaveM m seen t rest ents L) ?_ ?_ ?_ ?_ ?_ ?_ ?_ ?_ ?_ ?_ h
  · intro t rest v ws hp w hist warns f p p' mem hw hf
    right
    obtain ⟨g, h', es, k1, k2, k3⟩ := prim_complete hp (w.foldl LHist.put hist) warns
    have hc : consumeToken (envM m) ⟨w ++ t ++ rest, true, hist, warns⟩ = .ret (.val v) ⟨rest, g, h', warns ++ es⟩ := by
      rw [consumeToken_good, List.append_assoc, skip_blank hw, k3]
    have hv : PrimOK v := (Post.of_ret (consumeToken_ok (envM m) _ (by intro h; cases h)) hc).1.prim v rfl
    refine ⟨mem.next, _, _, p, by unfold hitem; rw [token_val hc]; rfl, ⟨rfl, k1⟩, Or.inl rfl, ?_⟩
    exact leaves_new hf (Nat.le_refl _) (stays_nil hf) (stores_prim hv (by simp [Mem.new]))
  · intro w' rest hwf w hist warns f p p' mem hw hf
    unfold hitem
    rw [show w ++ (b!"[" ++ w' ++ b!"]") ++ rest = w ++ (91 :: (w' ++ (93 :: rest))) by simp, token_punct (skip 91 w _ hist warns hw (by decide))]
    simp only [HOut.bind, if_true]
    cases f with
    | zero => left; rw [Heap.readArray]
    | succ f =>
      right
      rw [Heap.readArray, token_punct (skip 93 w' _ _ warns hwf (by decide))]
      simp only [HOut.bind, if_true]
      exact ⟨_, _, _, p', rfl, ⟨rfl, Or.inl rfl⟩, Or.inr rfl, leaves_new hf (Nat.le_refl _) (stays_nil hf) ⟨[], [], by simp [Mem.new], ⟨rfl, rfl⟩, rfl⟩⟩
  · intro t rest vs L _ ih w hist warns f p p' mem hw hf
    unfold hitem
    rw [show w ++ (b!"[" ++ t) ++ rest = w ++ (91 :: (t ++ rest)) by simp, token_punct (skip 91 w _ hist warns hw (by decide))]
    simp only [HOut.bind, if_true]
    cases f with
    | zero => left; rw [Heap.readArray]
    | succ f =>
      have key := ih ((w.foldl LHist.put hist).put 91) warns f mem.next p' p' none [] [] [] mem hf (Nat.le_refl _) ⟨rfl, rfl⟩ (by simp) (by simp) (stays_nil hf)
      have hne : ∀ (g : Nat) s mm, Heap.arrayLoop (envM m) (g + 1) p' none (.punct 93) s mm = .throw ⟨.notJson, s.hist⟩ mm := by
        intro g s mm
        rw [Heap.arrayLoop.eq_def]
        simp [HOut.bind]
      have key1 := ih ((w.foldl LHist.put hist).put 91) warns 1 mem.next p' p' none [] [] [] mem hf (Nat.le_refl _) ⟨rfl, rfl⟩ (by simp) (by simp) (stays_nil hf)
      have heq : Heap.readArray (envM m) (f + 1) p' ⟨t ++ rest, true, (w.foldl LHist.put hist).put 91, warns⟩ mem =
          (token (envM m) p' ⟨t ++ rest, true, (w.foldl LHist.put hist).put 91, warns⟩ mem).bind (fun tok s mm => Heap.arrayLoop (envM m) f p' none tok s mm) := by
        rw [Heap.readArray]
        cases htok : token (envM m) p' ⟨t ++ rest, true, (w.foldl LHist.put hist).put 91, warns⟩ mem with
        | ret tok s1 m1 =>
          simp only [HOut.bind]
          cases tok with
          | punct c =>
            by_cases hc : c = 93
            · exfalso
              rw [htok, hc] at key1
              simp only [HOut.bind, hne] at key1
              rcases key1 with h | ⟨_, _, _, h, _⟩ <;> cases h
            · simp only [if_neg hc]
          | _ => rfl
        | _ => rfl
      rw [heq]
      rcases key with h | ⟨a, s', mem', h, hu, hl⟩
      · exact Or.inl h
      · exact Or.inr ⟨a, s', mem', p', h, hu, Or.inr rfl, by simpa using hl⟩
  · intro w' rest hwf w hist warns f p p' mem hw hf
    unfold hitem
    rw [show w ++ (b!"{" ++ w' ++ b!"}") ++ rest = w ++ (123 :: (w' ++ (125 :: rest))) by simp, token_punct (skip 123 w _ hist warns hw (by decide))]
    simp only [HOut.bind]
    rw [if_neg (by decide), if_pos True.intro]
    cases f with
    | zero => left; rw [Heap.objectLoop]
    | succ f =>
      right
      rw [Heap.objectLoop, token_punct (skip 125 w' _ _ warns hwf (by decide))]
      simp only [HOut.bind]
      rw [if_pos ⟨rfl, True.intro⟩]
      exact ⟨_, _, _, p', rfl, ⟨rfl, Or.inl rfl⟩, Or.inr rfl, leaves_new hf (Nat.le_refl _) (stays_nil hf) ⟨false, [], [], by simp [Mem.new], ⟨rfl, rfl⟩, rfl⟩⟩
  · intro t rest ents L _ ih w hist warns f p p' mem hw hf
    unfold hitem
    rw [show w ++ (b!"{" ++ t) ++ rest = w ++ (123 :: (t ++ rest)) by simp, token_punct (skip 123 w _ hist warns hw (by decide))]
    simp only [HOut.bind]
    rw [if_neg (by decide), if_pos True.intro]
    rcases ih ((w.foldl LHist.put hist).put 123) warns f mem.next p' none none [] [] mem hf (Nat.le_refl _) ⟨by simp, by simp, rfl⟩ (stays_nil hf) List.nodup_nil (fun x => Iff.rfl) with
      h | ⟨a, s', mem', h, hu, hl⟩
    · exact Or.inl h
    · refine Or.inr ⟨a, s', mem', p', h, hu, Or.inr rfl, ?_⟩
      rw [Option.getD_none, addAll_nil] at hl
      exact hl
  · intro w1 t w2 rest v L h1 _ h2 ih hist warns f base p q ra acc as L0 mem hf hb hpre hn hnew hs
    rw [show w1 ++ t ++ w2 ++ b!"]" ++ rest = w1 ++ t ++ (w2 ++ b!"]" ++ rest) by simp]
    cases f with
    | zero => exact Or.inl (leave_zero ih h1 hist warns p q ra hf)
    | succ f =>
      rcases leave_item ih h1 (by simp) hist warns f q hf hb hpre hn hnew hs with h | ⟨r, s', mem3, as3, h, g1, g2, g3, g4, g5, g6, g7⟩
      · exact Or.inl h
      right
      rw [h, good s' g2, g1, show w2 ++ b!"]" ++ rest = w2 ++ (93 :: rest) by simp, token_punct (skip 93 w2 _ _ _ h2 (by decide))]
      simp only [HOut.bind, hsep, if_true]
      exact ⟨_, _, _, rfl, ⟨rfl, Or.inl rfl⟩, g3, as3, ⟨g4.stores, g5, g6⟩, g7⟩
  · intro w1 t w2 u rest v L vs L' h1 _ h2 _ ih ih2 hist warns f base p q ra acc as L0 mem hf hb hpre hn hnew hs
    rw [show w1 ++ t ++ w2 ++ b!"," ++ u ++ rest = w1 ++ t ++ (w2 ++ b!"," ++ u ++ rest) by simp]
    cases f with
    | zero => exact Or.inl (leave_zero ih h1 hist warns p q ra hf)
    | succ f =>
      rcases leave_item ih h1 (by simp) hist warns f q hf hb hpre hn hnew hs with h | ⟨r, s', mem3, as3, h, g1, g2, g3, g4, g5, g6, g7⟩
      · exact Or.inl h
      rw [h, good s' g2, g1, show w2 ++ b!"," ++ u ++ rest = w2 ++ (44 :: (u ++ rest)) by simp, token_punct (skip 44 w2 _ _ _ h2 (by decide))]
      simp only [HOut.bind, hsep]
      rw [if_neg (by decide), if_pos True.intro]
      have hg := g3.grow
      rcases ih2 ((w2.foldl LHist.put s'.hist).put 44) s'.warns f base p (some r) (some r) (acc ++ [v]) as3 (L0 ++ L) mem3 g3.fresh (by omega) g4 g5 g6 g7 with h | ⟨a, s2, mem', h, hu, hl⟩
      · exact Or.inl h
      · refine Or.inr ⟨a, s2, mem', h, hu, leaves_of_frame g3 ?_⟩
        simpa using hl
  · intro seen w1 key k wk w2 w3 t w4 rest v L h1 hk h2 hs h3 _ h4 ih hist warns f base p r ra as L0 mem hf hb hpre hst hn hseen
    cases f with
    | zero => left; rw [Heap.objectLoop]
    | succ f =>
      rw [show w1 ++ [34] ++ key ++ [34] ++ w2 ++ b!":" ++ w3 ++ t ++ w4 ++ b!"}" ++ rest = w1 ++ (34 :: (key ++ 34 :: (w2 ++ (58 :: (w3 ++ t ++ (w4 ++ b!"}" ++ rest)))))) by simp]
      rcases leave_member h1 hk h2 hs h3 ih (by simp) hist warns f hf hb hpre hst hseen with h | ⟨r', s', mem3, as3, h, g1, g2, g3, g4, g5, g6, g7⟩
      · exact Or.inl h
      right
      rw [h, good s' g2, g1, show w4 ++ b!"}" ++ rest = w4 ++ (125 :: rest) by simp, token_punct (skip 125 w4 _ _ _ h4 (by decide))]
      simp only [HOut.bind, hosep, if_true]
      exact ⟨_, _, _, rfl, ⟨rfl, Or.inl rfl⟩, g3, as3, ⟨g4.stores, g5, g6⟩, g7⟩
  · intro seen w1 key k wk w2 w3 t w4 e0 rest v L v' we h1 hk h2 hs h3 _ h4 hp ih hist warns f base p r ra as L0 mem hf hb hpre hst hn hseen
    have hne : e0 ≠ [] := by
      intro he
      generalize e0 = u at hp he
      cases hp with
      | str _ => simp at he
      | yes h _ => rw [he] at h; exact absurd (Name.small (by decide) h) (by decide)
      | no h _ => rw [he] at h; exact absurd (Name.small (by decide) h) (by decide)
      | null h => rw [he] at h; exact absurd (Name.small (by decide) h) (by decide)
      | int h _ _ =>
        simp only [intText, List.append_eq_nil_iff] at he
        exact h.1 he.2
      | dbl _ _ _ _ => simp at he
    cases f with
    | zero => left; rw [Heap.objectLoop]
    | succ f =>
      rw [show w1 ++ [34] ++ key ++ [34] ++ w2 ++ b!":" ++ w3 ++ t ++ w4 ++ e0 ++ rest = w1 ++ (34 :: (key ++ 34 :: (w2 ++ (58 :: (w3 ++ t ++ (w4 ++ e0 ++ rest)))))) by simp]
      rcases leave_member h1 hk h2 hs h3 ih (by simp [hne]) hist warns f hf hb hpre hst hseen with h | ⟨r', s', mem3, as3, h, g1, g2, g3, g4, g5, g6, g7⟩
      · exact Or.inl h
      right
      obtain ⟨g, h', es', k1, k2, k3⟩ := prim_complete hp (w4.foldl LHist.put s'.hist) s'.warns
      rw [h, good s' g2, g1, token_val (by rw [consumeToken_good, List.append_assoc, skip_blank h4, k3])]
      simp only [HOut.bind, hosep]
      have hlt : ∀ x ∈ as3, x < mem3.next := fun x hx => g3.fresh.lt (stores_live _ g4.stores x hx)
      have hfr := frame_new g3.fresh ⟨some r', .prim v'⟩
      have hg := g3.grow
      refine ⟨_, _, _, rfl, ⟨rfl, k1⟩, g3.trans (by omega) hfr, as3, ⟨(g4.congr (fun x hx => hfr.keep x (hlt x hx))).stores, g5, g6⟩, ?_⟩
      rw [← List.append_assoc]
      exact g7.lose g3.fresh (by omega) hlt
  · intro seen w1 key k wk w2 w3 t w4 c u rest v L ents L' h1 hk h2 hs h3 _ h4 hc _ ih ih2 hist warns f base p r ra as L0 mem hf hb hpre hst hn hseen
    cases f with
    | zero => left; rw [Heap.objectLoop]
    | succ f =>
      rw [show w1 ++ [34] ++ key ++ [34] ++ w2 ++ b!":" ++ w3 ++ t ++ w4 ++ [c] ++ u ++ rest = w1 ++ (34 :: (key ++ 34 :: (w2 ++ (58 :: (w3 ++ t ++ (w4 ++ [c] ++ u ++ rest)))))) by simp]
      rcases leave_member h1 hk h2 hs h3 ih (by simp) hist warns f hf hb hpre hst hseen with h | ⟨r', s', mem3, as3, h, g1, g2, g3, g4, g5, g6, g7⟩
      · exact Or.inl h
      rw [h, good s' g2, g1, show w4 ++ [c] ++ u ++ rest = w4 ++ (c :: (u ++ rest)) by simp, token_punct (skip c w4 _ _ _ h4 (by simp at hc ⊢; omega))]
      simp only [HOut.bind, hosep]
      rw [if_neg (by simp at hc; omega)]
      have hg := g3.grow
      have hadd := addOne_nodup (envM m) (r.getD []) k v hn
      rcases ih2 ((w4.foldl LHist.put s'.hist).put c) s'.warns f base p (some (addEntry (envM m) (dropKey (r.getD []) k) k v)) (some r') as3 (L0 ++ L) mem3 g3.fresh (by omega) ⟨g5, g6, g4⟩ g7
        hadd.1 (by intro z; rw [Option.getD_some, hadd.2 z, List.mem_cons, List.mem_cons, hseen]) with h | ⟨a, s2, mem', h, hu, hl⟩
      · exact Or.inl h
      · refine Or.inr ⟨a, s2, mem', h, hu, leaves_of_frame g3 ?_⟩
        rw [← List.append_assoc]
        exact hl

end Verif.Lemmas.Heap
