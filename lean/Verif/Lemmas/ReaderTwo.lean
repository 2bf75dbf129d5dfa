import Verif.Lemmas.ReaderSim
import Verif.Lemmas.ReaderFuel
import Verif.Lemmas.Sort
/-!
# Lemmas: applications of the reader simulations and invariants
-/
namespace Verif.Lemmas
open Verif.Model Verif.Spec

theorem tok_prim (env : Env) (s s' : St) (t : Tok) (hs : Exhausted s) (h : consumeToken env s = .ret t s') :
    ∀ v, t = .val v → PrimOK v := (Post.of_ret (consumeToken_ok env s hs) h).1.prim

theorem tok_exhausted (env : Env) (s s' : St) (t : Tok) (hs : Exhausted s) (h : consumeToken env s = .ret t s') :
    Exhausted s' := (Post.of_ret (consumeToken_ok env s hs) h).1.bad

/-! ### Sorted and source order -/

/-- Only the `sort` setting is irrelevant for tokens. -/
theorem consumeToken_congr (env1 env2 : Env) (h1 : env1.strictAnd = env2.strictAnd) (h2 : env1.ascii = env2.ascii)
    (h3 : env1.surr = env2.surr) (h4 : (env1.params = none ↔ env2.params = none)) (s : St) :
    consumeToken env1 s = consumeToken env2 s := by
  have hstr : ∀ rest hist warns acc, stringLoop env1 rest hist warns acc = stringLoop env2 rest hist warns acc := by
    intro rest hist warns acc
    fun_induction stringLoop env1 rest hist warns acc
    all_goals (conv => rhs; rw [stringLoop.eq_def])
    all_goals (try simp only [← h1, ← h2, ← h3])
    all_goals (try assumption)
    all_goals (clear h1 h2 h3 h4; simp +zetaDelta [*])
  have hbe : ∀ s c l r, boolEnd env1 s c l r = boolEnd env2 s c l r := by
    intro s c l r; simp only [boolEnd, h1, h4]
  have hb : ∀ fl rest hist warns l r, boolLoop env1 fl rest hist warns l r = boolLoop env2 fl rest hist warns l r := by
    intro fl rest hist warns l r
    induction rest generalizing hist l r with
    | nil => simp [boolLoop, hbe]
    | cons c rest ih => simp [boolLoop, hbe, ih]
  have hn : ∀ s c, consumeNull env1 s c = consumeNull env2 s c := by
    intro s c
    unfold consumeNull
    cases e1 : env1.params with
    | none => rw [h4.mp e1]
    | some p =>
      cases e2 : env2.params with
      | none => rw [h4.mpr e2] at e1; simp at e1
      | some q =>
        have : p.strict = q.strict := by simpa [Env.strictAnd, e1, e2] using h1
        simp only [this]
  have ht : ∀ rest hist warns, tokenLoop env1 rest hist warns = tokenLoop env2 rest hist warns := by
    intro rest hist warns
    induction rest generalizing hist with
    | nil => simp [tokenLoop]
    | cons c rest ih => simp only [tokenLoop, consumeString, consumeBool, hstr, hb, hn, ih]
  simp only [consumeToken, ht]

/-- Entries related by sorting. -/
def SortRel (a b : Entries) : Prop := a = sortByKey (sortTreeEntries b) ∧ (keys b).Nodup

theorem SortRel.keys {a b : Entries} (h : SortRel a b) : (keys a).Perm (keys b) := by
  obtain ⟨rfl, _⟩ := h
  have := keys_sortByKey_perm (sortTreeEntries b)
  rwa [keys_sortTreeEntries] at this

theorem listRel_sort {a b : List Json} (h : ListRel (fun v w => v = sortTree w) a b) : a = sortTrees b := by
  induction h with
  | nil => simp [sortTrees]
  | cons h _ ih => simp [sortTrees, ih, h]

theorem listRel_sort' {a b : List Json} (h : ListRel (fun w v => v = sortTree w) a b) : b = sortTrees a := by
  induction h with
  | nil => simp [sortTrees]
  | cons h _ ih => simp [sortTrees, ih, h]

theorem sortTree_prim (v : Json) (h : PrimOK v) : v = sortTree v := by
  cases v <;> simp [sortTree] <;> exact h.elim

section
variable {env1 env2 : Env}

theorem SortRel.push {a b : Entries} {k : Bytes} {v w : Json} (e1 : env1.sort = true) (e2 : env2.sort = false) (h : SortRel a b) (hc : k ∉ Lemmas.keys b)
    (hv : v = sortTree w) : SortRel (addEntry env1 a k v) (addEntry env2 b k w) := by
  obtain ⟨rfl, hn⟩ := h
  subst hv
  simp only [addEntry, e1, e2, if_true, Bool.false_eq_true, if_false]
  refine ⟨?_, nodup_of_perm_push (push_perm b k w) hn hc⟩
  rw [sortTreeEntries_push, sortedPush_sortByKey]
  · rwa [keys_sortTreeEntries]
  · rwa [keys_sortTreeEntries]

theorem SortRel.erase {a b : Entries} {k : Bytes} (h : SortRel a b) : SortRel (Json.erase a k) (Json.erase b k) := by
  obtain ⟨rfl, hn⟩ := h
  refine ⟨?_, erase_nodup _ _ hn⟩
  rw [sortTreeEntries_erase, erase_sortByKey]
  rwa [keys_sortTreeEntries]

theorem SortRel.nil : SortRel [] [] := by simp [SortRel, sortTreeEntries, sortByKey, Lemmas.keys]

/-- sorted run ⟶ source-order run -/
theorem sim_sort_keep (ht : ∀ s, consumeToken env1 s = consumeToken env2 s) (hs : env1.strictOr = env2.strictOr)
    (e1 : env1.sort = true) (e2 : env2.sort = false) :
    Sim env1 env2 (fun s1 s2 => s1 = s2 ∧ Exhausted s1) (fun _ => True) (fun v w => v = sortTree w) SortRel where
  tok := by
    rintro s1 s2 t s' ⟨rfl, hx⟩ h _
    exact ⟨t, s', ht s1 ▸ h, ⟨rfl, tok_exhausted _ _ _ _ hx h⟩, TokRel.refl (fun v hv => sortTree_prim v hv) t (tok_prim _ _ _ _ hx h)⟩
  tokG := fun _ _ _ _ _ => trivial
  warnG := fun _ _ _ => trivial
  nil := SortRel.nil
  obj := by rintro a b ⟨rfl, _⟩; simp [sortTree]
  arr := by intro a b h; simp [sortTree, listRel_sort h]
  contains := fun a b k h => contains_congr h.keys k
  push := by
    intro a b k v w h hc hv
    refine h.push e1 e2 ?_ hv
    rw [contains_congr h.keys k, contains_false_iff] at hc
    exact hc
  erase := by
    intro a b k h _ hst
    refine ⟨hs ▸ hst, h.erase, ?_⟩
    exact erase_not_contains _ _ (h.keys.nodup_iff.mpr h.2)
  warn := by rintro s1 s2 k ⟨rfl, hx⟩ _; exact ⟨rfl, hx⟩

/-- source-order run ⟶ sorted run -/
theorem sim_keep_sort (ht : ∀ s, consumeToken env1 s = consumeToken env2 s) (hs : env1.strictOr = env2.strictOr)
    (e1 : env1.sort = true) (e2 : env2.sort = false) :
    Sim env2 env1 (fun s1 s2 => s1 = s2 ∧ Exhausted s1) (fun _ => True) (fun w v => v = sortTree w) (fun b a => SortRel a b) where
  tok := by
    rintro s1 s2 t s' ⟨rfl, hx⟩ h _
    exact ⟨t, s', (ht s1).symm ▸ h, ⟨rfl, tok_exhausted _ _ _ _ hx h⟩, TokRel.refl (fun v hv => sortTree_prim v hv) t (tok_prim _ _ _ _ hx h)⟩
  tokG := fun _ _ _ _ _ => trivial
  warnG := fun _ _ _ => trivial
  nil := SortRel.nil
  obj := by rintro a b ⟨rfl, _⟩; simp [sortTree]
  arr := by intro a b h; simp [sortTree, listRel_sort' h]
  contains := fun a b k h => (contains_congr h.keys k).symm
  push := by
    intro a b k v w h hc hv
    exact h.push e1 e2 ((contains_false_iff _ _).mp hc) hv
  erase := by
    intro a b k h _ hst
    exact ⟨hs ▸ hst, h.erase, erase_not_contains _ _ h.2⟩
  warn := by rintro s1 s2 k ⟨rfl, hx⟩ _; exact ⟨rfl, hx⟩

theorem read_sort_iff (ht : ∀ s, consumeToken env1 s = consumeToken env2 s) (hs : env1.strictOr = env2.strictOr)
    (e1 : env1.sort = true) (e2 : env2.sort = false) (s : St) (hx : Exhausted s) (r : Option Json) (s' : St) :
    Model.read env1 s = .ret r s' ↔ ∃ w, Model.read env2 s = .ret w s' ∧ r = w.map sortTree := by
  constructor
  · intro h
    obtain ⟨v2, s2, h1, ⟨rfl, _⟩, h3⟩ := (reader_sim (sim_sort_keep ht hs e1 e2) (fun a b h => h.keys.nodup_iff.mpr h.2) _ _ (Nat.le_refl _)).1 s s r s'
      ⟨rfl, hx⟩ h trivial
    refine ⟨v2, h1, ?_⟩
    cases h3 with
    | none => rfl
    | some h' => simp [← h']
  · rintro ⟨w, h, hr⟩
    obtain ⟨v2, s2, h1, ⟨rfl, _⟩, h3⟩ := (reader_sim (sim_keep_sort ht hs e1 e2) (fun a b h => h.2) _ _ (Nat.le_refl _)).1 s s w s'
      ⟨rfl, hx⟩ h trivial
    refine h1.trans ?_
    congr 1
    cases h3 with
    | none => simp [hr]
    | some h' => simp [hr, ← h']

end

/-! ### Unique keys, increasing keys -/

theorem within_prim {v w : Json} (hw : PrimOK w) (h : Within v w) : v = w := by
  cases h with
  | self => rfl
  | item => exact hw.elim
  | value => exact hw.elim

/-- An invariant of the entries of objects holds of every object of the tree. -/
theorem inv_within (env : Env) (P : Entries → Prop) (nil : P [])
    (push : ∀ es k v, (keys es).Nodup → P es → k ∉ keys es → P (addEntry env es k v))
    (erase : ∀ es k, (keys es).Nodup → P es → P (Json.erase es k)) (s s' : St) (v : Json) (hx : Exhausted s)
    (h : Model.read env s = .ret (some v) s') (es : Entries) (hw : Within (.obj es) v) : P es ∧ (keys es).Nodup := by
  have H : ReaderInv env Exhausted (fun v => ∀ es, Within (.obj es) v → P es ∧ (keys es).Nodup)
      (fun es => P es ∧ (keys es).Nodup ∧ ∀ kv ∈ es, ∀ es', Within (.obj es') kv.2 → P es' ∧ (keys es').Nodup) (fun _ => True) := {
    tok := by
      intro s hs
      cases h : consumeToken env s <;> simp only [Out.Post]
      refine ⟨tok_exhausted _ _ _ _ hs h, ?_⟩
      intro v hv es hw
      have := within_prim (tok_prim _ _ _ _ hs h v hv) hw
      subst this
      exact (tok_prim _ _ _ _ hs h _ hv).elim
    thr := fun _ _ _ _ => trivial
    nullChild := fun _ => trivial
    fuel := trivial
    nil := ⟨nil, List.nodup_nil, by simp⟩
    obj := by
      rintro es ⟨h1, h2, h3⟩ es' hw
      cases hw with
      | self => exact ⟨h1, h2⟩
      | value hm hw => exact h3 _ hm _ hw
    arr := by
      intro l hl es hw
      cases hw with
      | item hm hw => exact hl _ hm _ hw
    push := by
      rintro es k v ⟨h1, h2, h3⟩ hc hv
      rw [contains_false_iff] at hc
      have hp : (addEntry env es k v).Perm ((k, v) :: es) := by
        unfold addEntry; split
        · exact sortedPush_perm _ _ _
        · exact push_perm _ _ _
      refine ⟨push es k v h2 h1 hc, nodup_of_perm_push hp h2 hc, ?_⟩
      intro kv hkv
      have := hp.mem_iff.mp hkv
      simp only [List.mem_cons] at this
      rcases this with rfl | this
      · exact hv
      · exact h3 _ this
    erase := by
      rintro es k ⟨h1, h2, h3⟩ _ _
      refine ⟨⟨erase es k h2 h1, erase_nodup _ _ h2, ?_⟩, erase_not_contains _ _ h2⟩
      intro kv hkv
      rw [erase_eq_filter _ _ h2] at hkv
      exact h3 _ (List.mem_filter.mp hkv).1
    warn := fun _ _ h _ => h }
  exact (Post.of_ret ((reader_inv H _).1 s hx) h).2 v rfl es hw

end Verif.Lemmas
