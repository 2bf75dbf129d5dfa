import Verif.Lemmas.ReaderHist
import Verif.Lemmas.History
/-!
# Lemmas: on every input, what the history shows has at most 45 bytes and no line feed
-/
namespace Verif.Lemmas
open Verif.Model Verif.Spec

/-- The buffer shows no line feed. -/
def NoLF (b : WBuf Byte errorHistoryLen) : Prop := ∀ c ∈ b.toString, c ≠ 10

theorem mem_lastN {T : Type} {n : Nat} {l : List T} {x : T} (h : x ∈ lastN n l) : x ∈ l := List.mem_of_mem_drop h

/-- The buffer is in order, shows no line feed, and if it was just shortened, either the next character resets it or the next byte of the input is no line break. -/
def Neat (input : Bytes) (h : LHist) (t : Bytes) : Prop :=
  ∃ jp, WInv h.buf ∧ Shape jp h.buf ∧ NoLF h.buf ∧ (jp = true → h.willReset = true ∨ ∀ c, t ++ [c] <+: input → isBreak c = false)

variable {input : Bytes}

theorem flush_neat {h : LHist} {jp : Bool} (h1 : WInv h.buf) (h2 : Shape jp h.buf) (h3 : NoLF h.buf) :
    WInv h.flush.buf ∧ Shape jp h.flush.buf ∧ NoLF h.flush.buf ∧ (h.willReset = true → Shape false h.flush.buf) := by
  unfold LHist.flush
  split
  · have hs : Shape false h.buf.reset := Or.inl ⟨rfl, rfl⟩
    exact ⟨reset_inv _ h1.len, hs.weaken, (fun c hc => by simp only [reset_toString] at hc; cases hc), fun _ => hs⟩
  · rename_i hr
    exact ⟨h1, h2, h3, fun h => absurd h hr⟩

theorem put_neat {b : WBuf Byte errorHistoryLen} {jp : Bool} {c : Byte} (h1 : WInv b) (h2 : Shape jp b) (h3 : NoLF b) (hc : c ≠ 10) : NoLF (b.put c) := by
  intro x hx
  rw [put_toString _ c h1 (by decide) (h2.putSafe h1)] at hx
  have := mem_lastN hx
  simp at this
  rcases this with h | rfl
  · exact h3 x h
  · exact hc

theorem pop_neat {b : WBuf Byte errorHistoryLen} (h1 : WInv b) (h3 : NoLF b) : NoLF b.popBack := by
  intro x hx
  rw [pop_toString _ h1] at hx
  exact h3 x (List.dropLast_subset _ hx)

theorem findNl_plain : ∀ (mem : List Byte) (count : Nat), LHist.findNl mem count = some none → count ≤ mem.length ∧ ∀ c ∈ mem.take count, c ≠ 10
  | _, 0, _ => ⟨Nat.zero_le _, by simp⟩
  | [], _ + 1, h => by cases h
  | c :: mem, count + 1, h => by
    unfold LHist.findNl at h
    by_cases hc : c = 10
    · rw [if_pos hc] at h; cases h
    · rw [if_neg hc] at h
      cases hf : LHist.findNl mem count with
      | none => rw [hf] at h; cases h
      | some o =>
        rw [hf] at h
        cases o with
        | some i => cases h
        | none =>
          obtain ⟨h1, h2⟩ := findNl_plain mem count hf
          refine ⟨by simpa using h1, ?_⟩
          intro x hx
          simp at hx
          rcases hx with rfl | hx
          · exact hc
          · exact h2 x hx

/-- After a batch, the next character resets the buffer, or the last thing was a write, or nothing at all was written. -/
theorem putNAux_neat : ∀ (fuel : Nat) (h h' : LHist) (mem : List Byte) (count : Nat) (jp : Bool), mem.length ≤ 45 → WInv h.buf → Shape jp h.buf → NoLF h.buf →
    LHist.putNAux fuel h mem count = some h' →
    WInv h'.buf ∧ NoLF h'.buf ∧ ((∃ jp', Shape jp' h'.buf ∧ h'.willReset = true) ∨ Shape false h'.buf ∨ (count = 0 ∧ h' = h.flush))
  | 0, _, _, _, _, _, _, _, _, _, e => by cases e
  | fuel + 1, h, h', mem, count, jp, hm, h1, h2, h3, e => by
    obtain ⟨f1, f2, f3, f4⟩ := flush_neat h1 h2 h3
    unfold LHist.putNAux at e
    dsimp only at e
    cases hf : LHist.findNl mem count with
    | none => rw [hf] at e; cases e
    | some o =>
      rw [hf] at e
      cases o with
      | none =>
        obtain ⟨hl, hn⟩ := findNl_plain mem count hf
        have e := Option.some.inj e
        subst e
        have hlen : (mem.take count).length = count := by simp; omega
        by_cases h0 : count = 0
        · subst h0
          have he : ({ h.flush with buf := h.flush.buf.putN (mem.take 0) } : LHist) = h.flush := by
            rw [show h.flush.buf.putN (mem.take 0) = h.flush.buf by simp [WBuf.putN]]
          rw [he]
          exact ⟨f1, f3, Or.inr (Or.inr ⟨rfl, rfl⟩)⟩
        · have hx : (mem.take count).length ≤ errorHistoryLen := by show _ ≤ 45; omega
          refine ⟨putN_inv _ _ f1 (by decide) hx, ?_, Or.inr (Or.inl (putN_shape _ _ (by decide) hx (by omega) f1 f2))⟩
          intro x hx'
          rw [putN_toString _ _ f1 (by decide) hx] at hx'
          have := mem_lastN hx'
          rcases List.mem_append.mp this with h | h
          · exact f3 x h
          · exact hn x h
      | some i =>
        dsimp only at e
        split at e
        · rename_i hi
          obtain ⟨g1, g2, g3⟩ := putNAux_neat fuel { h.flush with willReset := true } h' (mem.drop (i + 1)) (count - i) jp (by simp; omega) f1 f2 f3 e
          refine ⟨g1, g2, ?_⟩
          rcases g3 with g3 | g3 | ⟨g3, _⟩
          · exact Or.inl g3
          · exact Or.inr (Or.inl g3)
          · omega
        · have e := Option.some.inj e
          subst e
          exact ⟨f1, f3, Or.inl ⟨jp, f2, rfl⟩⟩

theorem Neat.batch {h h' : LHist} {t t' : Bytes} (hn : Neat input h t) {mem : List Byte} {count : Nat} (hm : mem.length ≤ 45) (hc : 0 < count ∨ (t' = t)) (e : h.putN mem count = some h') : Neat input h' t' := by
  obtain ⟨jp, h1, h2, h3, h4⟩ := hn
  obtain ⟨g1, g2, g3⟩ := putNAux_neat _ h h' mem count jp hm h1 h2 h3 e
  rcases g3 with ⟨jp', g3, g4⟩ | g3 | ⟨rfl, rfl⟩
  · exact ⟨jp', g1, g3, g2, fun _ => Or.inl g4⟩
  · exact ⟨false, g1, g3, g2, by simp⟩
  · rcases hc with hc | rfl
    · omega
    · by_cases hr : h.willReset = true
      · exact ⟨false, g1, (flush_neat h1 h2 h3).2.2.2 hr, g2, by simp⟩
      · have : h.flush = h := by unfold LHist.flush; rw [if_neg hr]
        rw [this]
        exact ⟨jp, h1, h2, h3, h4⟩

theorem Neat.put {h : LHist} {t : Bytes} (hn : Neat input h t) (c : Byte) (t' : Bytes) : Neat input (h.put c) t' := by
  obtain ⟨jp, h1, h2, h3, h4⟩ := hn
  obtain ⟨f1, f2, f3, f4⟩ := flush_neat h1 h2 h3
  unfold LHist.put
  dsimp only
  split
  · exact ⟨jp, f1, f2, f3, fun _ => Or.inl rfl⟩
  · rename_i hc
    exact ⟨false, put_inv _ c f1 (by decide), put_shape _ c (by decide) f1 f2, put_neat f1 f2 f3 (fun h => hc (Or.inl h)), by simp⟩

theorem Neat.putPop {h : LHist} {t : Bytes} {c : Byte} (hn : Neat input h t) (hc : t ++ [c] <+: input ∨ (t = input ∧ c = 255)) : Neat input (h.put c).popBack t := by
  obtain ⟨jp, h1, h2, h3, h4⟩ := hn
  obtain ⟨f1, f2, f3, f4⟩ := flush_neat h1 h2 h3
  unfold LHist.put LHist.popBack
  dsimp only
  split
  · rename_i hb
    have hbr : isBreak c = true := (isBreak_iff c).mpr hb
    have hs : Shape false h.flush.buf := by
      cases jp with
      | false => exact f2
      | true =>
        rcases h4 rfl with h4 | h4
        · exact f4 h4
        · rcases hc with hc | ⟨_, rfl⟩
          · rw [h4 c hc] at hbr; cases hbr
          · cases hbr
    exact ⟨true, pop_inv _ f1, pop_shape _ f1 hs, pop_neat f1 f3, fun _ => Or.inl rfl⟩
  · rename_i hb
    have p1 := put_inv _ c f1 (by decide)
    refine ⟨true, pop_inv _ p1, pop_shape _ p1 (put_shape _ c (by decide) f1 f2), pop_neat p1 (put_neat f1 f2 f3 (fun h => hb (Or.inl h))), fun _ => Or.inr ?_⟩
    intro c' hc'
    rcases hc with hc | ⟨rfl, _⟩
    · have e : t ++ [c] = t ++ [c'] := by
        obtain ⟨r, hr⟩ := hc
        obtain ⟨r', hr'⟩ := hc'
        exact List.append_inj_left (hr.trans hr'.symm) (by simp)
      have e : c = c' := by simpa using e
      subst e
      cases hk : isBreak c with
      | false => rfl
      | true => exact absurd ((isBreak_iff c).mp hk) hb
    · have := hc'.length_le
      simp at this
      omega

theorem neatRel (input : Bytes) : HistRel input (Neat input) (fun _ => True) where
  at1 := fun _ _ _ => trivial
  at2 := fun _ _ _ _ => trivial
  put := fun h t c hn _ => hn.put c _
  putPop := fun h t d c hn _ hc => hn.putPop hc
  null := fun h h' t d x1 x2 x3 hn _ _ e => ⟨hn.batch (by simp) (Or.inl (by decide)) e, trivial⟩
  nullShort := fun h h' t d short hn _ _ hl e => hn.batch (by simp) (Or.inl (by decide)) e
  uni := fun h h' t x1 x2 x3 x4 hn _ e => ⟨hn.batch (by simp) (Or.inl (by decide)) e, trivial⟩
  uniShort := fun h h' t xs hn he hl e => ⟨hn.batch (by omega) (by
      cases xs with
      | nil => right; rw [← he]; simp
      | cons => left; simp) e, trivial⟩

/-- What the history shows has at most 45 bytes, none of them a line feed. -/
def Legible (h : LHist) : Prop := h.toString.length ≤ 45 ∧ ∀ c ∈ h.toString, c ≠ 10

theorem Neat.legible {h : LHist} {t : Bytes} (hn : Neat input h t) : Legible h := by
  obtain ⟨jp, h1, h2, h3, h4⟩ := hn
  refine ⟨?_, h3⟩
  show h.buf.toString.length ≤ 45
  rw [length_toString _ h1]
  exact size_le _ h1

/-- On every input, every exception and every message is legible. -/
theorem read_legible (env : Env) (junk : List Byte) (n : Nat) (hj : junk.length = 45) (input : Bytes) :
    (∀ e, Model.read env (St.init junk n input) = .throw e → Legible e.hist) ∧
    (∀ r s', Model.read env (St.init junk n input) = .ret r s' → ∀ m ∈ s'.warns, Legible m.hist) := by
  have h := read_hist (neatRel input) env junk n ⟨false, ⟨hj, Or.inl ⟨rfl, rfl⟩⟩, Or.inl ⟨rfl, rfl⟩, by intro c hc; simp [LHist.init, WBuf.init, WBuf.toString, WBuf.size] at hc, by simp⟩
  constructor
  · intro e he
    rw [he] at h
    obtain ⟨t, h1, _⟩ := h
    exact h1.legible
  · intro r s' hr m hm
    rw [hr] at h
    obtain ⟨t, h1, _⟩ := h.warns m hm
    exact h1.legible

end Verif.Lemmas
