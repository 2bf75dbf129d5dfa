import Verif.Lemmas.HeapSteps
import Verif.Lemmas.QuietMore
/-!
# Lemmas: the reader with its objects is the reader
-/
namespace Verif.Lemmas.Heap
open Verif.Model Verif.Model.Heap Verif.Spec.Heap

/-- The same outcome, with `R` between the results; nothing is said where the first has no fuel. -/
def Agrees {α β : Type} (o' : Out α) (o : HOut β) (R : α → β → Mem → Prop) : Prop :=
  match o', o with
  | .fuel, _ => True
  | .ret a s, .ret b s' m => s = s' ∧ R a b m
  | .throw e, .throw e' _ => e = e'
  | .uncaught u, .uncaught u' _ => u = u'
  | .ub u, .ub u' => u = u'
  | _, _ => False

theorem Agrees.bind {α β γ δ : Type} {o' : Out α} {o : HOut β} {R : α → β → Mem → Prop} {f' : α → St → Out γ} {f : β → St → Mem → HOut δ} {R' : γ → δ → Mem → Prop}
    (h : Agrees o' o R) (hf : ∀ a b s m, R a b m → Agrees (f' a s) (f b s m) R') : Agrees (o'.bind f') (o.bind f) R' := by
  cases o' with
  | fuel => exact True.intro
  | ret a s =>
    cases o with
    | ret b s' m => obtain ⟨rfl, h⟩ := h; exact hf a b s m h
    | _ => exact absurd h (by simp [Agrees])
  | throw e =>
    cases o with
    | throw e' m => exact h
    | _ => exact absurd h (by simp [Agrees])
  | uncaught e =>
    cases o with
    | uncaught e' m => exact h
    | _ => exact absurd h (by simp [Agrees])
  | ub e =>
    cases o with
    | ub e' => exact h
    | _ => exact absurd h (by simp [Agrees])

theorem Agrees.mono {α β : Type} {o' : Out α} {o : HOut β} {R R' : α → β → Mem → Prop} (h : Agrees o' o R) (hr : ∀ a b m, R a b m → R' a b m) : Agrees o' o R' := by
  cases o' <;> cases o <;> first | exact h | exact ⟨h.1, hr _ _ _ h.2⟩

/-- A token with its object. -/
def TokRel (p : Option Addr) (m : Mem) (t : Tok) (t' : HTok) (m' : Mem) : Prop :=
  match t, t' with
  | .val v, .val a => PrimOK v ∧ a = m.next ∧ m' = (m.new ⟨p, .prim v⟩).2
  | .punct c, .punct c' => c = c' ∧ m' = m
  | .nothing, .nothing => m' = m
  | _, _ => False

theorem token_agrees (env : Env) (p : Option Addr) (s : St) (m : Mem) : Agrees (consumeToken env s) (token env p s m) (TokRel p m) := by
  have hp : ∀ v s', consumeToken env s = .ret (.val v) s' → PrimOK v := by
    intro v s' h
    by_cases hg : s.good = true
    · exact (Post.of_ret (consumeToken_ok env s (by intro h; rw [hg] at h; cases h)) h).1.prim v rfl
    · simp [consumeToken, hg] at h
  unfold token
  cases h : consumeToken env s with
  | ret t s' =>
    cases t with
    | val v => exact ⟨rfl, hp v s' h, rfl, rfl⟩
    | punct c => exact ⟨rfl, rfl, rfl⟩
    | nothing => exact ⟨rfl, rfl⟩
  | throw e => exact rfl
  | uncaught e => exact rfl
  | ub e => exact rfl
  | fuel => exact True.intro

/-- From `m` to `m'` addresses below `base` were left alone. -/
structure Frame (base : Addr) (m m' : Mem) : Prop where
  fresh : Fresh m'
  grow : m.next ≤ m'.next
  keep : ∀ x, x < base → m'.get x = m.get x

theorem Frame.trans {base base' : Addr} {m m' m'' : Mem} (hb : base ≤ base') (h : Frame base m m') (h' : Frame base' m' m'') : Frame base m m'' :=
  ⟨h'.fresh, Nat.le_trans h.grow h'.grow, fun x hx => by rw [h'.keep x (by omega), h.keep x hx]⟩

theorem frame_new {m : Mem} (hf : Fresh m) (o : Obj) : Frame m.next m (m.new o).2 := by
  refine ⟨fun x hx => ?_, Nat.le_succ _, fun x hx => ?_⟩
  · have hx : m.next + 1 ≤ x := hx
    have : x ≠ m.next := by omega
    simp only [Mem.new, this, if_false]
    exact hf x (by omega)
  · have : x ≠ m.next := by omega
    simp [Mem.new, this]

/-- A document was made, of new objects. -/
structure Made (base : Addr) (m : Mem) (parent : Option Addr) (v : Json) (a : Addr) (as : List Addr) : Prop where
  stores : Stores m parent v a as
  nodup : as.Nodup
  new : ∀ x ∈ as, base ≤ x

/-- Nothing else is left (where it is claimed). -/
def Tidy (q : Bool) (base : Addr) (m : Mem) (as : List Addr) : Prop := q = true → ∀ x, base ≤ x → m.get x ≠ none → x ∈ as

/-- What the functions of the reader give. -/
def Gives (q : Bool) (base : Addr) (m : Mem) (parent : Option Addr) (v : Json) (a : Addr) (m' : Mem) : Prop :=
  Frame base m m' ∧ ∃ as, Made base m' parent v a as ∧ Tidy q base m' as

/-- The object so far. -/
def ObjPre (env : Env) (base : Addr) (m : Mem) (parent : Option Addr) (r : Option (List (Bytes × Json))) (ra : Option Addr) (as : List Addr) : Prop :=
  as.Nodup ∧ (∀ x ∈ as, base ≤ x) ∧
  match r, ra with
  | none, none => as = []
  | some es, some a => ObjAt m parent env.sort es a as
  | _, _ => False

/-- The array so far. -/
def ArrPre (m : Mem) (parent : Option Addr) (acc : List Json) (ra : Option Addr) (as : List Addr) : Prop :=
  match ra with
  | none => acc = [] ∧ as = []
  | some a => ArrAt m parent acc a as

/-- The pending token of an array. -/
def Pending (m : Mem) (t : Tok) (t' : HTok) (pend : List Addr) : Prop :=
  match t, t' with
  | .val v, .val a => PrimOK v ∧ (∃ p, m.get a = some ⟨p, .prim v⟩) ∧ pend = [a]
  | .punct c, .punct c' => c = c' ∧ pend = []
  | .nothing, .nothing => pend = []
  | _, _ => False

theorem tidy_nil {q : Bool} {m : Mem} (hf : Fresh m) : Tidy q m.next m [] := fun _ x hx h => absurd (hf x hx) h

theorem gives_new {q : Bool} {base : Addr} {m : Mem} {parent : Option Addr} {v : Json} {o : Obj} (hf : Fresh m) (hb : base ≤ m.next) (ht : Tidy q base m [])
    (hs : Stores (m.new o).2 parent v m.next [m.next]) : Gives q base m parent v m.next (m.new o).2 := by
  have hfr := frame_new hf o
  refine ⟨⟨hfr.fresh, hfr.grow, fun x hx => hfr.keep x (by omega)⟩, [m.next], ⟨hs, by simp, by simpa using hb⟩, ?_⟩
  intro hq x hx hl
  by_cases e : x = m.next
  · simp [e]
  · simp only [Mem.new, e, if_false] at hl
    exact absurd (ht hq x hx hl) (by simp)

theorem gives_prim {q : Bool} {base : Addr} {m : Mem} {p : Option Addr} {v : Json} (hf : Fresh m) (hb : base ≤ m.next) (ht : Tidy q base m []) (hv : PrimOK v) :
    Gives q base m p v m.next (m.new ⟨p, .prim v⟩).2 := gives_new hf hb ht (stores_prim hv (by simp [Mem.new]))

/-- The entries before a member is added: a new object, the object as it is, or the object without the key. -/
theorem result_agrees (q : Bool) (env : Env) (base : Addr) (parent : Option Addr) (r : Option (List (Bytes × Json))) (ra : Option Addr) (key : Bytes) (s : St) (m : Mem) (as : List Addr)
    (hf : Fresh m) (hp : ObjPre env base m parent r ra as) :
    ((Json.contains (r.getD []) key && env.strictOr) = true → ∃ m', result env parent ra key s m = .throw ⟨.doubleKey key, s.hist⟩ m') ∧
    ((Json.contains (r.getD []) key && env.strictOr) = false → ∃ a m' as', result env parent ra key s m = .ret a (if Json.contains (r.getD []) key then warnDup s key else s) m' ∧
      ObjAt m' parent env.sort (dropKey (r.getD []) key) a as' ∧ as'.Nodup ∧ (∀ x ∈ as', x ∈ as ∨ x = m.next) ∧ Fresh m' ∧ m.next ≤ m'.next ∧
      (∀ x, x ∉ as → x ≠ m.next → m'.get x = m.get x) ∧ (∀ x, m'.get x ≠ none → x ∈ as' ∨ (x ∉ as ∧ x ≠ m.next))) := by
  obtain ⟨hn, hb, hp⟩ := hp
  cases r with
  | none =>
    cases ra with
    | some a => exact absurd hp (by simp)
    | none =>
      subst hp
      have h1 : Json.contains ((none : Option (List (Bytes × Json))).getD []) key = false := rfl
      refine ⟨fun h => by rw [h1] at h; simp at h, fun _ => ?_⟩
      have hfr := frame_new hf ⟨parent, .obj env.sort []⟩
      refine ⟨m.next, (m.new ⟨parent, .obj env.sort []⟩).2, [m.next], rfl, ⟨[], [], by simp [Mem.new], ?_, rfl⟩, by simp, by simp, hfr.fresh, hfr.grow, ?_, ?_⟩
      · simp [dropKey, Json.contains, StoresEntries]
      · intro x _ hx; simp [Mem.new, hx]
      · intro x hx
        by_cases e : x = m.next
        · left; simp [e]
        · right; simpa using e
  | some es =>
    cases ra with
    | none => exact absurd hp (by simp)
    | some a =>
      dsimp only at hp
      simp only [Option.getD_some]
      have hc := contains_spec key hp hn
      rcases Bool.eq_false_or_eq_true (Json.contains es key) with hcc | hcc
      rotate_left
      · refine ⟨fun h => by rw [hcc] at h; simp at h, fun _ => ?_⟩
        rw [hcc] at hc
        refine ⟨a, m, as, by simp [result, hc, hcc], by simpa [dropKey, hcc] using hp, hn, fun x hx => Or.inl hx, hf, Nat.le_refl _, fun _ _ _ => rfl, ?_⟩
        intro x hx
        by_cases e : x ∈ as
        · exact Or.inl e
        · refine Or.inr ⟨e, ?_⟩
          have := hf.lt hx
          omega
      · rw [hcc] at hc
        cases hst : env.strictOr with
        | true =>
          exact ⟨fun _ => ⟨m, by simp [result, hc, hst]⟩, fun h => by rw [hcc] at h; simp at h⟩
        | false =>
          refine ⟨fun h => by simp at h, fun _ => ?_⟩
          obtain ⟨m', as', e1, h2, h3, h4, h5, h6, h7⟩ := erase_spec key hf hp hn hcc
          refine ⟨a, m', as', by simp [result, hc, hst, e1, warnDup, hcc], by simpa [dropKey, hcc] using h2, h3, fun x hx => Or.inl (h4 x hx), ?_, Nat.le_of_eq h5.symm, fun x hx _ => h6 x hx, ?_⟩
          · intro x hx
            rw [h5] at hx
            rw [h6 x (fun hxa => by
              have := hf.lt (stores_live _ hp.stores x hxa)
              omega)]
            exact hf x hx
          · intro x hx
            by_cases e : x ∈ as
            · by_cases e' : x ∈ as'
              · exact Or.inl e'
              · exact absurd (h7 x e e') hx
            · refine Or.inr ⟨e, ?_⟩
              rw [h6 x e] at hx
              have := hf.lt hx
              omega

theorem delete_key {m : Mem} {k : Addr} {p : Option Addr} {v : Json} (hf : Fresh m) (h : m.get k = some ⟨p, .prim v⟩) : delete m.next k m = .done (m.drop k) := by
  have hk := hf.lt (x := k) (by rw [h]; simp)
  obtain ⟨n, e⟩ : ∃ n, m.next = n + 1 := ⟨m.next - 1, by omega⟩
  rw [e]
  simp only [delete, h]

theorem drop_get (m : Mem) (k x : Addr) : (m.drop k).get x = if x = k then none else m.get x := rfl

theorem fresh_drop {m : Mem} (hf : Fresh m) (k : Addr) : Fresh (m.drop k) := by
  intro x hx
  have hx : m.next ≤ x := hx
  rw [drop_get]
  split
  · rfl
  · exact hf x hx

/-- A member was read: key `k`, value `v` at `a`; it is added and the key destroyed. -/
theorem member_agrees (q : Bool) {env : Env} {base : Addr} {parent : Option Addr} {es : List (Bytes × Json)} {key : Bytes} {m0 m m2 : Mem} {r k a : Addr} {as : List Addr} {v : Json}
    (hfm : Fresh m) (hb : base ≤ k) (hkm : ∃ p, m.get k = some ⟨p, .prim (.str key)⟩) (hfr : Frame base m0 m)
    (ho : ObjAt m parent env.sort es r as) (hn : as.Nodup) (hnew : ∀ x ∈ as, base ≤ x) (hk : k ∉ as) (ht : Tidy q base m (k :: as))
    (hv : Gives q m.next m (some r) v a m2) :
    ∃ m3 as3, Heap.push m2 r key a = some m3 ∧ delete m3.next k m3 = .done (m3.drop k) ∧ Frame base m0 (m3.drop k) ∧
      ObjAt (m3.drop k) parent env.sort (addEntry env es key v) r as3 ∧ as3.Nodup ∧ (∀ x ∈ as3, base ≤ x) ∧ Tidy q base (m3.drop k) as3 := by
  obtain ⟨hf2, av, hmade, htv⟩ := hv
  obtain ⟨p, hkp⟩ := hkm
  have hlt : ∀ x ∈ as, x < m.next := fun x hx => hfm.lt (stores_live _ ho.stores x hx)
  have hklt : k < m.next := hfm.lt (by rw [hkp]; simp)
  have hltr : base ≤ m.next := Nat.le_of_lt (Nat.lt_of_le_of_lt hb hklt)
  have ho2 : ObjAt m2 parent env.sort es r as := ho.congr (fun x hx => hf2.keep x (hlt x hx))
  have hn2 : (as ++ av).Nodup := by
    refine List.nodup_append.mpr ⟨hn, hmade.nodup, fun x hx y hy e => ?_⟩
    have h1 := hlt x hx
    have h2 := hmade.new y hy
    omega
  have hltv : ∀ x ∈ av, x < m2.next := fun x hx => hf2.fresh.lt (stores_live _ hmade.stores x hx)
  have hgrow := hf2.grow
  obtain ⟨m3, as3, e3, h3, hp3, hnx3, hk3⟩ := push_spec key hf2.fresh ho2 hmade.stores hn2
  have hkav : k ∉ av := fun h => by have := hmade.new k h; omega
  have hk3' : m3.get k = some ⟨p, .prim (.str key)⟩ := by
    rw [hk3 k hk hkav (by omega), hf2.keep k hklt]; exact hkp
  have hf3 : Fresh m3 := by
    intro x hx
    rw [hnx3] at hx
    rw [hk3 x (fun h => by have := hlt x h; omega) (fun h => by have := hltv x h; omega) (by omega)]
    exact hf2.fresh x (by omega)
  have hn3 : as3.Nodup := hp3.nodup_iff.mpr (List.nodup_cons.mpr ⟨fun h => by
    rcases List.mem_append.mp h with h | h
    · have := hlt _ h; omega
    · have := hltv _ h; omega, hn2⟩)
  have hk3n : k ∉ as3 := fun h => by
    rcases List.mem_cons.mp (hp3.mem_iff.mp h) with h | h
    · omega
    · rcases List.mem_append.mp h with h | h
      · exact hk h
      · exact hkav h
  refine ⟨m3, as3, e3, delete_key hf3 hk3', ⟨fresh_drop hf3 k, ?_, ?_⟩, ?_, hn3, ?_, ?_⟩
  · have h1 := hfr.grow
    show m0.next ≤ m3.next
    omega
  · intro x hx
    have h1 : x ≠ k := by omega
    rw [drop_get, if_neg h1, hk3 x (fun h => by have := hnew x h; omega) (fun h => by have := hmade.new x h; omega) (by omega), hf2.keep x (by omega), hfr.keep x hx]
  · refine ObjAt.congr h3 (fun x hx => ?_)
    rw [drop_get, if_neg (fun e : x = k => hk3n (e ▸ hx))]
  · intro x hx
    rcases List.mem_cons.mp (hp3.mem_iff.mp hx) with h | h
    · omega
    · rcases List.mem_append.mp h with h | h
      · exact hnew x h
      · have := hmade.new x h; omega
  · intro hq x hx hl
    rw [drop_get] at hl
    by_cases hxk : x = k
    · simp [hxk] at hl
    rw [if_neg hxk] at hl
    refine hp3.mem_iff.mpr ?_
    by_cases h1 : x = m2.next
    · simp [h1]
    by_cases h2 : x ∈ as
    · simp [h2]
    by_cases h3 : x ∈ av
    · simp [h3]
    exfalso
    rw [hk3 x h2 h3 h1] at hl
    by_cases h4 : x < m.next
    · rw [hf2.keep x h4] at hl
      rcases List.mem_cons.mp (ht hq x hx hl) with h | h
      · exact hxk h
      · exact h2 h
    · exact h3 (htv hq x (by omega) hl)

theorem gives_of_frame {q : Bool} {base : Addr} {m0 m m' : Mem} {parent : Option Addr} {v : Json} {a : Addr} (hf : Frame base m0 m) (h : Gives q base m parent v a m') : Gives q base m0 parent v a m' :=
  ⟨hf.trans (Nat.le_refl _) h.1, h.2⟩

theorem reader_agrees (q : Bool) (env : Env) (f : Nat) :
    (∀ p s m, Fresh m → Agrees (Quiet.readNext q env f s) (Heap.readNext env f p s m)
      (fun v a m' => Frame m.next m m' ∧ match v, a with | none, none => m' = m | some v, some a => Gives q m.next m p v a m' | _, _ => False)) ∧
    (∀ base p r ra as s m, Fresh m → base ≤ m.next → ObjPre env base m p r ra as → Tidy q base m as →
      Agrees (Quiet.objectLoop q env f r s) (Heap.objectLoop env f p ra s m) (fun v a m' => Gives q base m p v a m')) ∧
    (∀ p s m, Fresh m → Agrees (Quiet.readArray q env f s) (Heap.readArray env f p s m) (fun v a m' => Gives q m.next m p v a m')) ∧
    (∀ base p acc ra t t' as pend s m, Fresh m → base ≤ m.next → ArrPre m p acc ra as → Pending m t t' pend → (as ++ pend).Nodup → (∀ x ∈ as ++ pend, base ≤ x) →
      Tidy q base m (as ++ pend) →
      Agrees (Quiet.arrayLoop q env f acc t s) (Heap.arrayLoop env f p ra t' s m) (fun v a m' => Gives q base m p v a m')) := by
  induction f with
  | zero =>
    refine ⟨?_, ?_, ?_, ?_⟩ <;> intros <;> simp [Quiet.readNext, Quiet.objectLoop, Quiet.readArray, Quiet.arrayLoop, Agrees]
  | succ f ih =>
    obtain ⟨ihN, ihO, ihA, ihL⟩ := ih
    have hopre : ∀ m p, ObjPre env m.next m p none none [] := fun m p => ⟨by simp, by simp, rfl⟩
    refine ⟨?_, ?_, ?_, ?_⟩
    · intro p s m hf
      rw [Quiet.readNext_succ, Heap.readNext]
      refine .bind (token_agrees env p s m) ?_
      intro t t' s m1 hr
      cases t with
      | val v =>
        cases t' with
        | val a =>
          obtain ⟨hv, rfl, rfl⟩ := hr
          have := gives_prim (p := p) hf (Nat.le_refl _) (tidy_nil (q := q) hf) hv
          exact ⟨rfl, this.1, this⟩
        | _ => exact absurd hr (by simp [TokRel])
      | punct c =>
        cases t' with
        | punct c' =>
          obtain ⟨rfl, rfl⟩ := hr
          dsimp only
          by_cases h1 : c = 123
          · rw [if_pos h1, if_pos h1]
            refine .bind (ihO m1.next p none none [] s m1 hf (Nat.le_refl _) (hopre m1 p) (tidy_nil hf)) ?_
            intro v a s m2 h
            exact ⟨rfl, h.1, h⟩
          · rw [if_neg h1, if_neg h1]
            by_cases h2 : c = 91
            · rw [if_pos h2, if_pos h2]
              refine .bind (ihA p s m1 hf) ?_
              intro v a s m2 h
              exact ⟨rfl, h.1, h⟩
            · rw [if_neg h2, if_neg h2]
              exact ⟨rfl, ⟨hf, Nat.le_refl _, fun _ _ => rfl⟩, rfl⟩
        | _ => exact absurd hr (by simp [TokRel])
      | nothing =>
        cases t' with
        | nothing =>
          obtain rfl := hr
          exact ⟨rfl, ⟨hf, Nat.le_refl _, fun _ _ => rfl⟩, rfl⟩
        | _ => exact absurd hr (by simp [TokRel])
    · intro base p r ra as s m hf hb hpre ht
      rw [Quiet.objectLoop_succ, Heap.objectLoop]
      have hiso : r.isNone = ra.isNone := by
        obtain ⟨_, _, h⟩ := hpre
        cases r <;> cases ra <;> first | rfl | exact absurd h (by simp)
      refine .bind (token_agrees env ra s m) ?_
      intro t t' s m1 hr
      cases t with
      | punct c =>
        cases t' with
        | punct c' =>
          obtain ⟨rfl, rfl⟩ := hr
          simp only [Quiet.objKey, hiso]
          by_cases h1 : ra.isNone ∧ c = 125
          · rw [if_pos h1, if_pos h1]
            have has : as = [] := by
              obtain ⟨_, _, h⟩ := hpre
              cases ra with
              | some a => exact absurd h1.1 (by simp)
              | none =>
                cases r with
                | none => exact h
                | some es => exact absurd h (by simp)
            subst has
            exact ⟨rfl, gives_new hf hb ht ⟨false, [], [], by simp [Mem.new], ⟨rfl, rfl⟩, rfl⟩⟩
          · rw [if_neg h1, if_neg h1]
            exact rfl
        | _ => exact absurd hr (by simp [TokRel])
      | nothing =>
        cases t' with
        | nothing => obtain rfl := hr; exact rfl
        | _ => exact absurd hr (by simp [TokRel])
      | val v =>
        cases t' with
        | val k =>
          obtain ⟨_, rfl, rfl⟩ := hr
          have hkget : (m.new ⟨ra, .prim v⟩).2.get m.next = some ⟨ra, .prim v⟩ := by simp [Mem.new]
          have hfr1 := frame_new hf ⟨ra, .prim v⟩
          cases v with
          | str key =>
            simp only [Quiet.objKey, hkget]
            refine .bind (token_agrees env p s _) ?_
            intro t t' s m2 hr
            cases t with
            | val v =>
              cases t' with
              | val a => exact rfl
              | _ => exact absurd hr (by simp [TokRel])
            | nothing =>
              cases t' with
              | nothing => exact rfl
              | _ => exact absurd hr (by simp [TokRel])
            | punct c =>
              cases t' with
              | punct c' =>
                obtain ⟨rfl, rfl⟩ := hr
                simp only [Quiet.objColon]
                by_cases hc : c ≠ 58
                · rw [if_pos hc, if_pos hc]; exact rfl
                rw [if_neg hc, if_neg hc]
                have hlt : ∀ x ∈ as, x < m.next := by
                  intro x hx
                  obtain ⟨_, _, h⟩ := hpre
                  cases ra with
                  | none =>
                    cases r with
                    | none => dsimp only at h; subst h; exact absurd hx (by simp)
                    | some es => exact absurd h (by simp)
                  | some a =>
                    cases r with
                    | none => exact absurd h (by simp)
                    | some es => exact hf.lt (stores_live _ (ObjAt.stores h) x hx)
                have hpre1 : ObjPre env base (m.new ⟨ra, .prim (.str key)⟩).2 p r ra as := by
                  obtain ⟨h1, h2, h⟩ := hpre
                  refine ⟨h1, h2, ?_⟩
                  cases r <;> cases ra <;> first | exact h | skip
                  exact ObjAt.congr h (fun x hx => hfr1.keep x (hlt x hx))
                obtain ⟨hth, hre⟩ := result_agrees q env base p r ra key s _ as hfr1.fresh hpre1
                rcases Bool.eq_false_or_eq_true (Json.contains (r.getD []) key && env.strictOr) with hs | hs
                · rw [if_pos hs]
                  obtain ⟨m', e⟩ := hth hs
                  rw [e]
                  exact rfl
                · rw [if_neg (by rw [hs]; simp)]
                  obtain ⟨r', m', as', e, h1, h2, h3, h4, h5, h6, h7⟩ := hre hs
                  rw [e]
                  have hmn : (m.new ⟨ra, .prim (.str key)⟩).2.next = m.next + 1 := rfl
                  rw [hmn] at h3 h5 h6 h7
                  show Agrees _ ((Heap.readNext env f (some r') _ m').bind _) _
                  refine .bind (ihN (some r') _ m' h4) ?_
                  intro v a s m2 hv
                  cases v with
                  | none =>
                    cases a with
                    | none => exact rfl
                    | some a => exact absurd hv.2 (by simp)
                  | some v =>
                    cases a with
                    | none => exact absurd hv.2 (by simp)
                    | some a =>
                      have hv := hv.2
                      dsimp only at hv
                      have hkas : m.next ∉ as := fun h => by have := hlt _ h; omega
                      have hbas : ∀ x ∈ as', base ≤ x := fun x hx => by
                        rcases h3 x hx with h | h
                        · exact hpre.2.1 x h
                        · omega
                      have hkas' : m.next ∉ as' := fun h => by
                        rcases h3 _ h with h | h
                        · exact hkas h
                        · omega
                      have hfr' : Frame base m m' := by
                        refine ⟨h4, by omega, fun x hx => ?_⟩
                        rw [h6 x (fun h => by have := hpre.2.1 x h; omega) (by omega), hfr1.keep x (by omega)]
                      have ht' : Tidy q base m' (m.next :: as') := by
                        intro hq x hx hl
                        rcases h7 x hl with h | ⟨h, h'⟩
                        · simp [h]
                        · rw [h6 x h h'] at hl
                          by_cases e : x = m.next
                          · simp [e]
                          · simp only [Mem.new, e, if_false] at hl
                            exact absurd (ht hq x hx hl) h
                      obtain ⟨m3, as3, e3, e4, hf5, ho5, hn5, hb5, ht5⟩ := member_agrees q (m0 := m) h4 hb
                        ⟨ra, by rw [h6 m.next hkas (by omega)]; exact hkget⟩ hfr' h1 h2 hbas hkas' ht' hv
                      simp only [Quiet.objChild, e3, e4]
                      refine .bind (token_agrees env (some r') s _) ?_
                      intro t t' s m6 hr
                      have hpre5 : ObjPre env base (m3.drop m.next) p (some (addEntry env (dropKey (r.getD []) key) key v)) (some r') as3 := ⟨hn5, hb5, ho5⟩
                      have hloop := ihO base p (some (addEntry env (dropKey (r.getD []) key) key v)) (some r') as3 s (m3.drop m.next) hf5.fresh (by
                        have := hf5.grow; omega) hpre5 ht5
                      cases t with
                      | val w =>
                        cases t' with
                        | val b =>
                          obtain ⟨_, rfl, rfl⟩ := hr
                          cases q with
                          | true => exact True.intro
                          | false =>
                            have hfr6 := frame_new hf5.fresh ⟨some r', .prim w⟩
                            refine ⟨rfl, hf5.trans (by have := hf5.grow; omega) hfr6, as3, ⟨?_, hn5, hb5⟩, fun h => absurd h (by simp)⟩
                            exact (ho5.congr (fun x hx => hfr6.keep x (hf5.fresh.lt (stores_live _ ho5.stores x hx)))).stores
                        | _ => exact absurd hr (by simp [TokRel])
                      | punct c =>
                        cases t' with
                        | punct c' =>
                          obtain ⟨rfl, rfl⟩ := hr
                          simp only [Quiet.objSep]
                          by_cases h125 : c = 125
                          · rw [if_pos h125, if_pos h125]
                            exact ⟨rfl, hf5, as3, ⟨ho5.stores, hn5, hb5⟩, ht5⟩
                          · rw [if_neg h125, if_neg h125]
                            exact hloop.mono (fun _ _ _ h => gives_of_frame hf5 h)
                        | _ => exact absurd hr (by simp [TokRel])
                      | nothing =>
                        cases t' with
                        | nothing =>
                          obtain rfl := hr
                          exact hloop.mono (fun _ _ _ h => gives_of_frame hf5 h)
                        | _ => exact absurd hr (by simp [TokRel])
              | _ => exact absurd hr (by simp [TokRel])
          | _ => simp only [Quiet.objKey, hkget]; exact rfl
        | _ => exact absurd hr (by simp [TokRel])
    · intro p s m hf
      rw [Quiet.readArray_succ, Heap.readArray]
      refine .bind (token_agrees env p s m) ?_
      intro t t' s m1 hr
      cases t with
      | val v =>
        cases t' with
        | val a =>
          obtain ⟨hv, rfl, rfl⟩ := hr
          have hg := gives_prim (p := p) hf (Nat.le_refl _) (tidy_nil (q := q) hf) hv
          have hfr1 := frame_new hf ⟨p, .prim v⟩
          refine (ihL m.next p [] none (.val v) (.val m.next) [] [m.next] s _ hfr1.fresh hfr1.grow ⟨rfl, rfl⟩ ⟨hv, ⟨p, by simp [Mem.new]⟩, rfl⟩ (by simp) (by simp) ?_).mono
            (fun _ _ _ h => gives_of_frame hfr1 h)
          intro hq x hx hl
          by_cases e : x = m.next
          · simp [e]
          · simp only [Mem.new, e, if_false] at hl
            exact absurd (hf x hx) hl
        | _ => exact absurd hr (by simp [TokRel])
      | punct c =>
        cases t' with
        | punct c' =>
          obtain ⟨rfl, rfl⟩ := hr
          dsimp only
          by_cases h1 : c = 93
          · rw [if_pos h1, if_pos h1]
            exact ⟨rfl, gives_new hf (Nat.le_refl _) (tidy_nil hf) ⟨[], [], by simp [Mem.new], ⟨rfl, rfl⟩, rfl⟩⟩
          · rw [if_neg h1, if_neg h1]
            exact ihL m1.next p [] none (.punct c) (.punct c) [] [] s _ hf (Nat.le_refl _) ⟨rfl, rfl⟩ ⟨rfl, rfl⟩ (by simp) (by simp) (tidy_nil hf)
        | _ => exact absurd hr (by simp [TokRel])
      | nothing =>
        cases t' with
        | nothing =>
          obtain rfl := hr
          exact ihL m1.next p [] none .nothing .nothing [] [] s _ hf (Nat.le_refl _) ⟨rfl, rfl⟩ rfl (by simp) (by simp) (tidy_nil hf)
        | _ => exact absurd hr (by simp [TokRel])
    · intro base p acc ra t t' as pend s m hf hb hpre hpend hn hnew ht
      rw [Quiet.arrayLoop_succ, Heap.arrayLoop.eq_def]
      dsimp only
      have hlt : ∀ x ∈ as, x < m.next := by
        intro x hx
        cases ra with
        | none => rw [hpre.2] at hx; exact absurd hx (by simp)
        | some r => exact hf.lt (stores_live _ (ArrAt.stores hpre) x hx)
      have hsub : ∀ {m1 : Mem} {v : Json} {a : Addr}, pend = [] → Gives q m.next m none v a m1 →
          Frame base m m1 ∧ ∃ av p0, Stores m1 p0 v a av ∧ (as ++ av).Nodup ∧ (∀ x ∈ as ++ av, base ≤ x) ∧ Tidy q base m1 (as ++ av) ∧ ArrPre m1 p acc ra as := by
        intro m1 v a hp hg
        subst hp
        simp only [List.append_nil] at hn hnew ht
        obtain ⟨hfr, av, hmade, htv⟩ := hg
        refine ⟨⟨hfr.fresh, hfr.grow, fun x hx => hfr.keep x (by omega)⟩, av, none, hmade.stores, ?_, ?_, ?_, ?_⟩
        · refine List.nodup_append.mpr ⟨hn, hmade.nodup, fun x hx y hy e => ?_⟩
          have h1 := hlt x hx
          have h2 := hmade.new y hy
          omega
        · intro x hx
          rcases List.mem_append.mp hx with h | h
          · exact hnew x h
          · have := hmade.new x h; omega
        · intro hq x hx hl
          rw [List.mem_append]
          by_cases h : x < m.next
          · rw [hfr.keep x h] at hl
            exact Or.inl (ht hq x hx hl)
          · exact Or.inr (htv hq x (by omega) hl)
        · cases ra with
          | none => exact hpre
          | some r => exact ArrAt.congr hpre (fun x hx => hfr.keep x (hlt x hx))
      refine .bind (R := fun v a m1 => Frame base m m1 ∧ ∃ av p0, Stores m1 p0 v a av ∧ (as ++ av).Nodup ∧ (∀ x ∈ as ++ av, base ≤ x) ∧ Tidy q base m1 (as ++ av) ∧ ArrPre m1 p acc ra as) ?_ ?_
      · cases t with
        | val v =>
          cases t' with
          | val a =>
            obtain ⟨hv, ⟨p0, hp0⟩, rfl⟩ := hpend
            exact ⟨rfl, ⟨hf, Nat.le_refl _, fun _ _ => rfl⟩, [a], p0, stores_prim hv hp0, hn, hnew, ht, hpre⟩
          | _ => exact absurd hpend (by simp [Pending])
        | punct c =>
          cases t' with
          | punct c' =>
            obtain ⟨rfl, hp⟩ := hpend
            simp only [Quiet.arrItem]
            by_cases h1 : c = 91
            · rw [if_pos h1, if_pos h1]
              exact (ihA none s m hf).mono (fun _ _ _ h => hsub hp h)
            · rw [if_neg h1, if_neg h1]
              by_cases h2 : c = 123
              · rw [if_pos h2, if_pos h2]
                exact (ihO m.next none none none [] s m hf (Nat.le_refl _) (hopre m none) (tidy_nil hf)).mono (fun _ _ _ h => hsub hp h)
              · rw [if_neg h2, if_neg h2]
                exact rfl
          | _ => exact absurd hpend (by simp [Pending])
        | nothing =>
          cases t' with
          | nothing => exact rfl
          | _ => exact absurd hpend (by simp [Pending])
      · rintro v a s m1 ⟨hfr1, av, p0, hst, hn1, hnew1, ht1, hpre1⟩
        -- the array itself
        have hres : ∃ r m2 as2, arrResult p ra m1 = (r, m2) ∧ Frame base m m2 ∧ ArrAt m2 p acc r as2 ∧ Stores m2 p0 v a av ∧
            (as2 ++ av).Nodup ∧ (∀ x ∈ as2 ++ av, base ≤ x) ∧ Tidy q base m2 (as2 ++ av) := by
          cases ra with
          | some r => exact ⟨r, m1, as, rfl, hfr1, hpre1, hst, hn1, hnew1, ht1⟩
          | none =>
            obtain ⟨rfl, rfl⟩ := hpre1
            have hfr2 := frame_new hfr1.fresh ⟨p, .arr []⟩
            have hltv : ∀ x ∈ av, x < m1.next := fun x hx => hfr1.fresh.lt (stores_live _ hst x hx)
            have hg1 := hfr1.grow
            refine ⟨m1.next, _, [m1.next], rfl, hfr1.trans (by omega) hfr2, ⟨[], [], by simp [Mem.new], ⟨rfl, rfl⟩, rfl⟩, stores_congr v hst (fun x hx => hfr2.keep x (hltv x hx)), ?_, ?_, ?_⟩
            · simp only [List.cons_append, List.nil_append, List.nodup_cons]
              exact ⟨fun h => by have := hltv _ h; omega, by simpa using hn1⟩
            · intro x hx
              simp only [List.cons_append, List.nil_append, List.mem_cons] at hx
              rcases hx with h | h
              · omega
              · exact hnew1 x (by simpa using h)
            · intro hq x hx hl
              by_cases e : x = m1.next
              · simp [e]
              · simp only [Mem.new, e, if_false] at hl
                have := ht1 hq x hx hl
                simp only [List.nil_append] at this
                simp [this]
        obtain ⟨r, m2, as2, e2, hfr2, hat2, hst2, hn2, hnew2, ht2⟩ := hres
        obtain ⟨m3, e3, hat3, hnx3, hk3⟩ := pushBack_spec hat2 hst2 hn2
        have hlive : ∀ x ∈ as2 ++ av, x < m2.next := by
          intro x hx
          rcases List.mem_append.mp hx with h | h
          · exact hfr2.fresh.lt (stores_live _ hat2.stores x h)
          · exact hfr2.fresh.lt (stores_live _ hst2 x h)
        have hfr3 : Frame base m m3 := by
          refine ⟨fun x hx => ?_, by rw [hnx3]; exact hfr2.grow, fun x hx => ?_⟩
          · rw [hnx3] at hx
            rw [hk3 x (fun h => by have := hlive x (List.mem_append_left _ h); omega) (fun h => by have := hlive x (List.mem_append_right _ h); omega)]
            exact hfr2.fresh x hx
          · rw [hk3 x (fun h => by have := hnew2 x (List.mem_append_left _ h); omega) (fun h => by have := hnew2 x (List.mem_append_right _ h); omega)]
            exact hfr2.keep x hx
        have ht3 : Tidy q base m3 (as2 ++ av) := by
          intro hq x hx hl
          by_cases h1 : x ∈ as2
          · simp [h1]
          by_cases h2 : x ∈ av
          · simp [h2]
          rw [hk3 x h1 h2] at hl
          exact ht2 hq x hx hl
        have hg3 := hfr3.grow
        have hb3 : base ≤ m3.next := by omega
        have hlt3 : ∀ x ∈ as2 ++ av, x < m3.next := fun x hx => by rw [hnx3]; exact hlive x hx
        simp only [e2, e3]
        refine .bind (token_agrees env (some r) s m3) ?_
        intro t t' s m4 hr
        cases t with
        | val w =>
          cases t' with
          | val b => exact rfl
          | _ => exact absurd hr (by simp [TokRel])
        | nothing =>
          cases t' with
          | nothing => exact rfl
          | _ => exact absurd hr (by simp [TokRel])
        | punct c =>
          cases t' with
          | punct c' =>
            obtain ⟨rfl, rfl⟩ := hr
            simp only [Quiet.arrSep]
            by_cases h1 : c = 93
            · rw [if_pos h1, if_pos h1]
              exact ⟨rfl, hfr3, _, ⟨hat3.stores, hn2, hnew2⟩, ht3⟩
            · rw [if_neg h1, if_neg h1]
              by_cases h2 : c = 44
              · rw [if_pos h2, if_pos h2]
                refine .bind (token_agrees env (some r) s m4) ?_
                intro t t' s m5 hr
                cases t with
                | val w =>
                  cases t' with
                  | val b =>
                    obtain ⟨hw, rfl, rfl⟩ := hr
                    have hfr5 := frame_new hfr3.fresh ⟨some r, .prim w⟩
                    refine (ihL base p (acc ++ [v]) (some r) (.val w) (.val m4.next) (as2 ++ av) [m4.next] s _ hfr5.fresh (by show base ≤ m4.next + 1; omega)
                      (ArrAt.congr hat3 (fun x hx => hfr5.keep x (hlt3 x hx))) ⟨hw, ⟨some r, by simp [Mem.new]⟩, rfl⟩ ?_ ?_ ?_).mono (fun _ _ _ h => gives_of_frame (hfr3.trans hb3 hfr5) h)
                    · refine List.nodup_append.mpr ⟨hn2, by simp, fun x hx y hy e => ?_⟩
                      have := hlt3 x hx
                      simp only [List.mem_singleton] at hy
                      omega
                    · intro x hx
                      rcases List.mem_append.mp hx with h | h
                      · exact hnew2 x h
                      · simp only [List.mem_singleton] at h
                        omega
                    · intro hq x hx hl
                      by_cases e : x = m4.next
                      · simp [e]
                      · simp only [Mem.new, e, if_false] at hl
                        exact List.mem_append_left _ (ht3 hq x hx hl)
                  | _ => exact absurd hr (by simp [TokRel])
                | punct c =>
                  cases t' with
                  | punct c' =>
                    obtain ⟨rfl, rfl⟩ := hr
                    exact (ihL base p (acc ++ [v]) (some r) (.punct c) (.punct c) (as2 ++ av) [] s _ hfr3.fresh hb3 hat3 ⟨rfl, rfl⟩ (by simpa using hn2) (by simpa using hnew2)
                      (by simpa using ht3)).mono (fun _ _ _ h => gives_of_frame hfr3 h)
                  | _ => exact absurd hr (by simp [TokRel])
                | nothing =>
                  cases t' with
                  | nothing =>
                    obtain rfl := hr
                    exact (ihL base p (acc ++ [v]) (some r) .nothing .nothing (as2 ++ av) [] s _ hfr3.fresh hb3 hat3 rfl (by simpa using hn2) (by simpa using hnew2)
                      (by simpa using ht3)).mono (fun _ _ _ h => gives_of_frame hfr3 h)
                  | _ => exact absurd hr (by simp [TokRel])
              · rw [if_neg h2, if_neg h2]
                exact rfl
          | _ => exact absurd hr (by simp [TokRel])

end Verif.Lemmas.Heap
